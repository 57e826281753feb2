{"id": "C01", "title": "JSON output round-trips", "statement": "For every parse-result tree, the text drafter emits in JSON format (pretty or packed) is syntactically valid JSON and a conforming JSON reader recovers exactly the same tree: same nesting, same member order, same keys, same string bytes, same number lexemes.", "quantifier": "every serialisable value tree of any depth and width, any string bytes, both whitespace modes", "why_tests_cant": "The set of trees and of string contents is infinite; a missing comma, a wrong escape or wrong nesting can hide at any shape or character.", "anchors": ["packages/drafter/src/utils/so/JsonIo.cc: serialize_json", "packages/drafter/src/drafter.cc: drafter_serialize"]}
{"id": "C02", "title": "JSON string literals are always well formed", "statement": "Whatever bytes a description, key or example contains, the emitted JSON string literal contains no raw control character below 0x20, no unescaped quote, and only the escapes JSON defines; unescaping gives back the original bytes.", "quantifier": "every byte string", "why_tests_cant": "256^n possible strings; the escape table must be right for each byte in every context.", "anchors": ["packages/drafter/src/utils/so/JsonIo.cc: escape/print string"]}
{"id": "C03", "title": "Packed and pretty JSON denote the same value", "statement": "The packed and the pretty JSON rendering of one tree are read back as the same value, and differ only in whitespace outside string literals.", "quantifier": "every value tree and every indentation depth", "why_tests_cant": "Requires agreement of two printers on all trees.", "anchors": ["packages/drafter/src/utils/so/JsonIo.cc"]}
{"id": "C04", "title": "YAML double-quoted scalars round-trip", "statement": "For every string of Unicode scalar values, the YAML double-quoted scalar emitted for it stays on one line, contains only printable characters, and decodes under YAML 1.2 escape rules to the same code points.", "quantifier": "every sequence of Unicode scalar values", "why_tests_cant": "1.1 million code points in every context and order.", "anchors": ["packages/drafter/src/utils/so/YamlIo.cc", "packages/drafter/src/utils/Utf8.h"]}
{"id": "C05", "title": "YAML documents round-trip", "statement": "For every parse-result tree, reading the emitted YAML block document back gives the same tree (mappings, sequences, scalars, empty collections, keys).", "quantifier": "every value tree with arbitrary keys and nesting", "why_tests_cant": "Indentation-sensitive syntax: correctness depends on all nestings and all keys at once.", "anchors": ["packages/drafter/src/utils/so/YamlIo.cc: serialize_yaml"]}
{"id": "C06", "title": "UTF-8 codec is lossless on valid text", "statement": "Decoding well-formed UTF-8 yields exactly its sequence of code points, encoding a code point and decoding it again is the identity, and decode followed by encode returns the original bytes of every well-formed text.", "quantifier": "every sequence of Unicode scalar values", "why_tests_cant": "Whole code space and all concatenations.", "anchors": ["packages/drafter/src/utils/Utf8.h: decode_one, encode, input_iterator"]}
{"id": "C07", "title": "Malformed UTF-8 is replaced, never misread", "statement": "Every byte sequence, however malformed, is consumed in finitely many steps, the decoder never reads past the end, yields only Unicode scalar values, and yields U+FFFD exactly where the input is not well-formed UTF-8 without swallowing the following well-formed characters.", "quantifier": "every byte sequence", "why_tests_cant": "All malformed inputs; fuzzing samples only some.", "anchors": ["packages/drafter/src/utils/Utf8.h: decode_one"]}
{"id": "C08", "title": "Generated objects behave as ordered maps", "statement": "Building an object by repeated unique insertion leaves exactly one member per key, the last value written wins, a key keeps the position of its first insertion, and lookups of other keys are unaffected.", "quantifier": "every sequence of insertions of any length", "why_tests_cant": "Histories of unbounded length.", "anchors": ["packages/drafter/src/utils/so/Value.cc: emplace_unique, find"]}
{"id": "C09", "title": "Equality of serialised values is an equivalence", "statement": "Comparing two serialised values for equality is reflexive, symmetric and transitive and ignores only the order of object members.", "quantifier": "all values, including objects with repeated keys", "why_tests_cant": "Requires all triples of trees.", "anchors": ["packages/drafter/src/utils/so/Value.cc: operator=="]}
{"id": "C10", "title": "Number literals are recognised exactly", "statement": "A literal in a blueprint is accepted as a number iff it is a number of the ECMA-404 JSON grammar (after removal of trailing white space), so that whatever is accepted can be emitted verbatim as a JSON number.", "quantifier": "every byte string", "why_tests_cant": "Infinite language equality.", "anchors": ["packages/drafter/src/Serialize.cc: isValidNumber, LiteralTo"]}
{"id": "C11", "title": "Annotations report the right line and column", "statement": "For each annotation range inside the source, the reported start line/column and end line/column are those of the first character and of the end of the range, for every source text.", "quantifier": "every source text and every range inside it", "why_tests_cant": "All texts and offsets; off-by-one at line ends, at the last line and at empty ranges.", "anchors": ["packages/drafter/src/SourceMapUtils.cc: GetLinesEndIndex, GetLineFromMap"]}
{"id": "C12", "title": "Merging of source ranges preserves coverage", "statement": "Appending source ranges to a source map never loses or invents a covered position and merges only adjacent ranges, whatever the sequence of appends.", "quantifier": "all sequences of range appends", "why_tests_cant": "Histories of any length and any offsets.", "anchors": ["packages/apib-parser/src/markdown-parser/ByteBuffer.h: RangeSet::append"]}
{"id": "C13", "title": "Byte offsets are translated to the right character offsets", "statement": "For every source text, the byte-to-character index and the byte-range to character-range conversion give the number of characters before the position and the number of characters covered, and never touch memory outside their buffers.", "quantifier": "every byte string used as source and every byte range", "why_tests_cant": "All texts incl. truncated multi-byte tails.", "anchors": ["packages/apib-parser/src/markdown-parser/ByteBuffer.cc: BuildCharacterIndex, strnlen_utf8, BytesRangeToCharactersRange"]}
{"id": "C14", "title": "C API return codes and out-parameters", "statement": "drafter_parse_blueprint, drafter_parse_blueprint_to and drafter_check_blueprint return the parser's error code (a negative code for a null source), write the out-parameter exactly when documented, give a result tree iff asked for, and drafter_check_blueprint yields NULL iff there is no annotation and otherwise exactly the annotations of the full parse, in order.", "quantifier": "every source, option set and combination of null arguments, every parser outcome", "why_tests_cant": "All combinations of inputs and parser outcomes.", "anchors": ["packages/drafter/src/drafter.cc", "packages/drafter/src/drafter.h"]}
{"id": "C15", "title": "Parse result content", "statement": "The parse result lists the API category first iff the conversion succeeded, then exactly one error annotation iff the error code is not 0, then every warning of the parser followed by every warning of the conversion, in order; no exception escapes.", "quantifier": "every parser report and conversion outcome", "why_tests_cant": "All reports of any length and all exception points.", "anchors": ["packages/drafter/src/SerializeResult.cc: WrapRefract"]}
{"id": "C16", "title": "Option setters are independent", "statement": "Every sequence of option setter calls leaves each option at the value of the last call that set it and all other options at default; null option objects mean the defaults.", "quantifier": "every sequence of setter calls", "why_tests_cant": "All histories.", "anchors": ["packages/drafter/src/options.cc", "packages/drafter/src/drafter.cc: drafter_init_*"]}
{"id": "C17", "title": "Tabs and carriage returns are rejected with the exact position", "statement": "Parsing a source that contains a tab or a carriage return always fails with the business error code, without looking at anything else; the reported range has length one and its location is the character position of the first tab, or of the first carriage return when there is no tab. No other source is rejected for this reason.", "quantifier": "every source text", "why_tests_cant": "All texts.", "anchors": ["packages/apib-parser/src/snowcrash/snowcrash.cc: CheckSource, parse"]}
{"id": "C18", "title": "Warnings are reported once", "statement": "The conversion phase never reports the same (location, code, message) warning twice, reports each distinct warning it was given, and keeps first-occurrence order.", "quantifier": "every sequence of warnings", "why_tests_cant": "Histories.", "anchors": ["packages/drafter/src/ConversionContext.cc: warn"]}
{"id": "C19", "title": "Source maps appear only when asked for", "statement": "With source maps switched off the serialised tree contains a sourceMap attribute only under an annotation; with them on every source map present in the element tree is serialised; switching the flag changes nothing else.", "quantifier": "every element tree", "why_tests_cant": "All trees.", "anchors": ["packages/drafter/src/refract/SerializeSo.cc"]}
{"id": "C20", "title": "Named-type dependency table is reachability", "statement": "After resolution, the dependency set of each named type is exactly the set of types reachable from it through one or more declared parent/nested-type references, and resolution terminates, for every (also cyclic) set of declarations.", "quantifier": "every finite reference graph, every declaration order", "why_tests_cant": "All graphs.", "anchors": ["packages/apib-parser/src/snowcrash/BlueprintParser.h: resolveNamedTypeDependencyTableEntry, resolveNamedTypeTables"]}
{"id": "C21", "title": "Base type resolution is total and right", "statement": "For every set of named type declarations, resolving base types terminates; it succeeds iff no inheriting type depends on itself (through parents or nested types) and no inheritance chain leads to an undefined type, and then each type gets the base type of the root of its inheritance chain; otherwise an MSON error is reported, which is true: it names a type that depends on itself, or a parent that is not declared.", "quantifier": "every finite inheritance table", "why_tests_cant": "All graphs, chains of any length.", "anchors": ["packages/apib-parser/src/snowcrash/BlueprintParser.h: resolveNamedTypeBaseTableEntry"]}
{"id": "C22", "title": "Circular mixins are always detected", "statement": "While members are parsed the dependency table stays transitively closed, and an include of a type that already depends (directly or not) on the including type is always rejected with an MSON error; an include of an unknown type is always rejected.", "quantifier": "every sequence of dependency additions", "why_tests_cant": "All histories.", "anchors": ["packages/apib-parser/src/snowcrash/MSONUtility.h: addDependency", "packages/apib-parser/src/snowcrash/MSONMixinParser.h"]}
{"id": "C23", "title": "Registration order of named types is well defined", "statement": "The comparison used to sort named types before registration is a strict weak ordering, so that sorting is defined, and the sorted order puts each base type before the types inheriting from it, for every blueprint.", "quantifier": "every set of named types and members", "why_tests_cant": "All graphs and all triples.", "anchors": ["packages/drafter/src/NamedTypesRegistry.cc: InheritanceComparator, RegisterNamedTypes"]}
{"id": "C24", "title": "Type registry is a map with protected names", "statement": "Any sequence of add, remove, find and clear on the named type registry behaves like a finite map; reserved names and nameless elements are always refused and built-in types are always found.", "quantifier": "every operation sequence", "why_tests_cant": "Histories.", "anchors": ["packages/drafter/src/refract/Registry.cc"]}
{"id": "C25", "title": "Root ancestor lookup terminates", "statement": "Looking up the root ancestor or the resolved base of a named type terminates for every registry content and returns the first ancestor that is a base type or undefined.", "quantifier": "every registry content, including cyclic ones", "why_tests_cant": "All graphs.", "anchors": ["packages/drafter/src/refract/Registry.cc: FindRootAncestor", "packages/drafter/src/NamedTypesRegistry.cc: ResolveType"]}
{"id": "C26", "title": "Attribute and meta collections are ordered maps", "statement": "Setting, erasing, claiming and looking up attributes of an element behaves like an ordered map with one entry per name after any sequence of operations.", "quantifier": "every operation sequence", "why_tests_cant": "Histories.", "anchors": ["packages/drafter/src/refract/InfoElements.cc"]}
{"id": "C27", "title": "Object members are unique by key", "statement": "An object built by appending members has at most one member per property name, and a later member with the same name replaces the earlier one, at the end, after any sequence of appends.", "quantifier": "every append sequence", "why_tests_cant": "Histories.", "anchors": ["packages/drafter/src/refract/dsd/Object.cc: push_back"]}
{"id": "C28", "title": "Inheritance merge semantics", "statement": "Merging a chain of objects keeps every inherited property not overridden, in order, gives an overridden property the most derived definition in its original place, and appends new ones; the merge of any list of same-typed elements never fails, and mixed types always raise an error.", "quantifier": "every list of elements of any length", "why_tests_cant": "All chains.", "anchors": ["packages/drafter/src/refract/dsd/Extend.cc: merge"]}
{"id": "C29", "title": "Cloning preserves equality", "statement": "A full clone of any element compares equal to the original and serialises to the same tree; a clone without attributes, value or meta differs only in the dropped part.", "quantifier": "every element tree and every clone flag", "why_tests_cant": "All trees.", "anchors": ["packages/drafter/src/refract/Element.h: clone", "packages/drafter/src/refract/Utils.h: operator=="]}
{"id": "C30", "title": "Cardinality arithmetic is sound", "statement": "The computed number of values an element can take is exact or infinite and monotone: it is 1 only if there is exactly one value; sums and products never wrap.", "quantifier": "all cardinalities and all element trees", "why_tests_cant": "2^64 operand pairs; unbounded sums.", "anchors": ["packages/drafter/src/refract/Cardinal.h", "packages/drafter/src/refract/ElementSize.cc"]}
{"id": "C31", "title": "Generated JSON bodies are well formed", "statement": "The JSON body generated from any data structure is a finite JSON value with unique object keys, honours sample over default over type default, and contains every required or valued property.", "quantifier": "every expanded data structure", "why_tests_cant": "All structures.", "anchors": ["packages/drafter/src/refract/JsonValue.cc: generateJsonValue"]}
{"id": "C32", "title": "Generated bodies validate against generated schemas", "statement": "For each data structure, the JSON body drafter generates validates against the JSON Schema drafter generates for the same structure.", "quantifier": "every expanded data structure", "why_tests_cant": "All structures; needs two generators to agree.", "anchors": ["packages/drafter/src/refract/JsonValue.cc", "packages/drafter/src/refract/JsonSchema.cc"]}
{"id": "C33", "title": "Generated JSON schemas are valid", "statement": "In each generated schema the list of required properties has no duplicates and only lists declared properties, property names are unique, and enumerations are non-empty.", "quantifier": "every expanded data structure", "why_tests_cant": "All structures.", "anchors": ["packages/drafter/src/refract/JsonSchema.cc"]}
{"id": "C34", "title": "HTTP header names are valid tokens", "statement": "A header line is accepted iff its name is an RFC 7230 token; every accepted header has a trimmed value, and each rejected line yields a warning.", "quantifier": "every header line", "why_tests_cant": "All byte strings.", "anchors": ["packages/apib-parser/src/snowcrash/HeadersParser.cc", "packages/apib-parser/src/snowcrash/HeadersParser.h"]}
{"id": "C35", "title": "Duplicate headers are flagged", "statement": "For every list of headers, a warning is raised exactly for those headers whose name occurs earlier, ignoring case, except Set-Cookie and Link; no header is lost.", "quantifier": "every header list", "why_tests_cant": "Histories.", "anchors": ["packages/apib-parser/src/snowcrash/HeadersParser.cc: HeadersDuplicateChecker"]}
{"id": "C36", "title": "Media types are recognised and printed consistently", "statement": "A content type of the form type/subtype[+suffix] with parameters is split exactly into its parts, is treated as JSON iff it is application with (suffix or subtype) json ignoring case, and printing then parsing it again gives the same media type.", "quantifier": "every media type text", "why_tests_cant": "All strings.", "anchors": ["packages/apib-parser/src/grammar/Mediatype.h", "packages/apib-parser/src/MediaTypeParser.cc", "packages/apib/src/MediaType.cc", "packages/drafter/src/backend/MediaTypeS11n.cc"]}
{"id": "C37", "title": "URI template parsing is total and lossless", "statement": "Parsing any URI template terminates, accounts for each input byte exactly once (literal, expression or invalid part), and the list of variable names is exactly the valid variable names in the template's expressions.", "quantifier": "every URI template text", "why_tests_cant": "All strings.", "anchors": ["packages/apib-parser/src/grammar/Uritemplate.h", "packages/apib-parser/src/grammar/recover.h", "packages/apib-parser/src/snowcrash/UriTemplateParser.cc"]}
{"id": "C38", "title": "Suggested percent-encoding is right", "statement": "The percent-encoding drafter suggests for a disallowed character in a URI template is the RFC 3986 encoding (%XX with two hexadecimal digits per byte).", "quantifier": "every byte string", "why_tests_cant": "All bytes; tests use printable characters.", "anchors": ["packages/apib-parser/src/snowcrash/UriTemplateParser.cc: encodeString"]}
{"id": "C39", "title": "Parameters are unique by name", "statement": "After parsing a parameters section each parameter name occurs once, the last definition wins, each overshadowing yields one warning, and source maps stay aligned with parameters.", "quantifier": "every sequence of parameter items", "why_tests_cant": "Histories.", "anchors": ["packages/apib-parser/src/snowcrash/ParametersParser.h"]}
{"id": "C40", "title": "Signature parsing loses nothing", "statement": "Splitting an MSON or section signature into identifier and remainder terminates for every text and loses no character except surrounding white space.", "quantifier": "every signature text and every trait set", "why_tests_cant": "All strings with nested escapes.", "anchors": ["packages/apib-parser/src/snowcrash/SignatureSectionProcessor.h: parseSignatureIdentifier", "packages/apib-parser/src/snowcrash/StringUtility.h: RetrieveEscaped"]}
{"id": "C41", "title": "Signature attribute parsing is memory safe", "statement": "Parsing the parenthesised attributes of a signature terminates and never reads outside the string, for every text.", "quantifier": "every signature text", "why_tests_cant": "All strings, including empty and unbalanced parentheses.", "anchors": ["packages/apib-parser/src/snowcrash/SignatureSectionProcessor.h: parseSignatureAttributes, matchBrackets"]}
{"id": "C42", "title": "Trimming and splitting", "statement": "Trimming removes exactly the surrounding white space and is idempotent; splitting on the first delimiter is inverted by joining; key/value lines are accepted iff both sides are non-blank.", "quantifier": "every string", "why_tests_cant": "All strings.", "anchors": ["packages/apib-parser/src/snowcrash/StringUtility.h", "packages/apib-parser/src/snowcrash/CodeBlockUtility.h: keyValueFromLine"]}
{"id": "C43", "title": "Section parsing terminates and restores context", "statement": "So long as no section processor hands back an earlier node (the parsers of header-defined sections never do), parsing a section terminates after at most one step of each loop per node, never moves backwards or past the end, and leaves the section context stack as it found it; a list-defined section always ends at the next list item.", "quantifier": "every node list, every processor behaviour that respects the rule, every nesting of parsers", "why_tests_cant": "All documents and all processors.", "anchors": ["packages/apib-parser/src/snowcrash/SectionParser.h"]}
{"id": "C44", "title": "Pending model references are all settled", "statement": "After parsing, no request or response is left with a pending model reference: each is resolved to the model's payload or the parse reports a model error.", "quantifier": "every blueprint with references in any order", "why_tests_cant": "All documents.", "anchors": ["packages/apib-parser/src/snowcrash/BlueprintParser.h: checkLazyReferencing, resolvePendingModels"]}
{"id": "C45", "title": "Transactions pair requests and responses", "statement": "Each transaction example yields one transaction per request-response pair (each response alone if there is no request, each request alone if there is no response), in order, with none lost.", "quantifier": "every list of examples, requests and responses", "why_tests_cant": "All list lengths.", "anchors": ["packages/drafter/src/RefractAPI.cc: ActionToRefract, TransactionToRefract"]}
{"id": "C46", "title": "Explicit bodies and schemas win", "statement": "A payload's message body is the explicit body when there is one, a generated one only for JSON media types with a data structure and generation enabled, and none otherwise; the same for schemas, independently.", "quantifier": "every payload and option combination", "why_tests_cant": "All combinations.", "anchors": ["packages/drafter/src/RefractAPI.cc: PayloadToRefract"]}
{"id": "C47", "title": "Body-less statuses and methods", "statement": "A body is disallowed exactly for status 204, 304 and 1xx and for the methods HEAD and CONNECT.", "quantifier": "every status code and method name", "why_tests_cant": "Unbounded integers and strings.", "anchors": ["packages/apib-parser/src/snowcrash/HTTP.cc"]}
{"id": "C48", "title": "Metadata duplicates are reported once per key", "statement": "For every metadata block in which all lines are key/value lines, one duplicate warning is reported per key that occurs more than once and none otherwise.", "quantifier": "every metadata block", "why_tests_cant": "All lists.", "anchors": ["packages/apib-parser/src/snowcrash/BlueprintParser.h: parseMetadata"]}
{"id": "C49", "title": "Backtick escapes", "statement": "Stripping enclosing backticks returns the enclosed text when the whole subject is one balanced escape, and never loses text outside it.", "quantifier": "every string", "why_tests_cant": "All strings.", "anchors": ["packages/apib-parser/src/snowcrash/StringUtility.h: StripBackticks, RetrieveEscaped"]}
{"id": "C50", "title": "The converted blueprint shows every resource and action in order", "statement": "In the parse result of any blueprint, the resource elements found in the API category and its nested categories are exactly the blueprint's resources in document order, each with its name, URI template and one transition per action, in order; none is lost, duplicated or invented.", "quantifier": "every blueprint tree of any depth", "why_tests_cant": "All trees.", "anchors": ["packages/drafter/src/RefractAPI.cc: BlueprintToRefract, CategoryToRefract, ElementToRefract, ResourceToRefract, ActionToRefract"]}
{"id": "C51", "title": "Parameter attributes are read in any order", "statement": "The attributes in a parameter's parentheses (use, type, sample value) are recognised whatever their order; too many attributes or two types give exactly one warning and leave use and type unset.", "quantifier": "every list of attributes, old and new syntax", "why_tests_cant": "All attribute texts and all orders.", "anchors": ["packages/apib-parser/src/snowcrash/ParameterParser.h: parseAttributes, warnAboutAdditionalTraits"]}
{"id": "C52", "title": "Checks of parameter values are exact", "statement": "A default value is reported exactly when the parameter is not optional; sample and default values are reported exactly when the parameter lists its values and they are not among them.", "quantifier": "every parameter", "why_tests_cant": "All values.", "anchors": ["packages/apib-parser/src/snowcrash/ParameterParser.h: checkDefaultAndRequiredClash, checkExampleAndDefaultValue"]}
{"id": "C53", "title": "The whole document is read", "statement": "Parsing a document never stops before its end: every block at the top level is read exactly once and in order - as metadata, as signature or description of a section, by the parser of a list item or named type, or reported as unexpected - and the parsers of the document, its groups, resources, actions and data structures raise no exception of their own.", "quantifier": "every document, whatever the section-recognising expressions answer and whatever is done with the data", "why_tests_cant": "All sequences of blocks and all ways they can be classified.", "anchors": ["packages/apib-parser/src/snowcrash/BlueprintParser.h", "packages/apib-parser/src/snowcrash/ResourceGroupParser.h", "packages/apib-parser/src/snowcrash/ResourceParser.h", "packages/apib-parser/src/snowcrash/ActionParser.h", "packages/apib-parser/src/snowcrash/DataStructureGroupParser.h", "packages/apib-parser/src/snowcrash/SectionParser.h"]}
{"id": "C54", "title": "Requests and responses of an action are grouped into transaction examples in order", "statement": "The transaction examples of a parsed action contain exactly the requests and responses of the action, in document order; a new example begins exactly where a request follows a response; no example is empty; and this grouping is the only one with these properties.", "quantifier": "every action, i.e. every finite sequence of request and response sections", "why_tests_cant": "The number and interleaving of requests and responses of an action is unbounded; tests cover a handful of interleavings.", "anchors": ["packages/apib-parser/src/snowcrash/ActionParser.h: SectionProcessor<Action>::processNestedSection (115-169)", "packages/apib-parser/src/snowcrash/Blueprint.h: TransactionExample"]}
{"id": "C55", "title": "Expansion of named types ends", "statement": "Expanding the named types of a data structure always ends, also when types contain themselves or inherit from a type that contains them: with the expanded element, or with the error that a named type is circularly referencing itself by mixin. Without mixins it always succeeds.", "quantifier": "every registry of named types and every data structure", "why_tests_cant": "All graphs of types that contain, include and extend each other.", "anchors": ["packages/drafter/src/refract/ExpandVisitor.cc", "packages/drafter/src/refract/IsExpandableVisitor.cc", "packages/drafter/src/refract/Registry.cc: FindRootAncestor", "packages/drafter/src/RefractDataStructure.cc: ExpandRefract"]}
{"id": "C56", "title": "Nothing unresolved remains after expansion", "statement": "In the content of an expanded data structure no element bears the name of a user-defined type any more, and every reference to a registered type carries the (fully expanded) type with it, at every depth.", "quantifier": "every registry, every data structure whose expansion succeeds", "why_tests_cant": "Unbounded nesting, all type graphs.", "anchors": ["packages/drafter/src/refract/ExpandVisitor.cc"]}
{"id": "C57", "title": "What expansion yields", "statement": "Expansion leaves a data structure without named types and mixins unchanged. An element of a named type becomes a list of its ancestors, from the root down to the type itself, each marked with the name of the type it stands for, followed by the element itself with its meta data, attributes and expanded content; if the chain of parents is cyclic only the element itself is in the list.", "quantifier": "every registry, every data structure", "why_tests_cant": "Inheritance chains of any length, arbitrary contents.", "anchors": ["packages/drafter/src/refract/ExpandVisitor.cc: ExpandNamedType, GetInheritanceTree, ExpandMembers"]}
{"id": "C58", "title": "Type attributes, samples and defaults are read where they are written", "statement": "An element of a data structure is fixed, fixed-type, required, optional or nullable exactly if that word is among its type attributes. The value it defines is its own content, or else the first of its samples, or else its default, and it defines none exactly if it has none of them.", "quantifier": "every element", "why_tests_cant": "All attribute lists, including repeated names and empty or mistyped attributes.", "anchors": ["packages/drafter/src/refract/ElementUtils.cc: hasTypeAttr, findFirstSample, findDefault, findValue, definesValue"]}
{"id": "C59", "title": "The Markdown tree is the one the callbacks describe", "statement": "For every source and every well-bracketed sequence of Markdown callbacks, building the tree succeeds and gives exactly the blocks described: same kinds, texts, levels and flags, same order and nesting, each with the source ranges reported right after it (except one reported for a list as a whole). For any sequence the exception \"working node mismatch\" occurs exactly if the end of a block does not match the innermost open block, and \"no parent set\" never occurs.", "quantifier": "every source, every sequence of callbacks of any length and nesting", "why_tests_cant": "Unbounded nesting and sequences; the builder relies on a moving pointer into the tree.", "anchors": ["packages/apib-parser/src/markdown-parser/MarkdownParser.cc: parse, renderListItem, renderQuote, blockDidParse", "packages/apib-parser/src/markdown-parser/MarkdownNode.cc"]}
{"id": "C60", "title": "Every list item starts with a paragraph", "statement": "In the Markdown tree of any source, each list item has a paragraph as its first child, so that the section parsers can read the text of an item there.", "quantifier": "every sequence of callbacks in which all blocks are closed", "why_tests_cant": "All sequences.", "anchors": ["packages/apib-parser/src/markdown-parser/MarkdownParser.cc: renderListItem"]}
{"id": "C61", "title": "Source maps of the Markdown tree stay inside the source", "statement": "The source map of every node covers only bytes of the source, also when the last line has no newline, and the one of the paragraph made for the text of a list item covers that text.", "quantifier": "every source, every sequence of callbacks", "why_tests_cant": "All sources and reported ranges.", "anchors": ["packages/apib-parser/src/markdown-parser/MarkdownParser.cc: blockDidParse"]}
{"id": "C62", "title": "Attributes of an MSON type are read completely", "statement": "In the parentheses after a member or named type, the words required, optional, fixed, sample, default, nullable and fixed-type set exactly their own flags in any order and number; the first other attribute specifies the type, every further one is reported as ignored, and nested types are reported if the type is not an array or enumeration.", "quantifier": "every list of attributes, every table of named types", "why_tests_cant": "All lists of attributes.", "anchors": ["packages/apib-parser/src/snowcrash/MSONUtility.h: parseTypeAttribute, parseTypeDefinition"]}
{"id": "C63", "title": "Type specifications name the type and its nested types in order", "statement": "`name[a, b, [c](#c)]` gives the type `name` and the nested types a, b, c in order, a link stands for its text, and no nested type is lost.", "quantifier": "every text without NUL", "why_tests_cant": "All texts; the parser is a state machine that shortens its own input.", "anchors": ["packages/apib-parser/src/snowcrash/MSONUtility.h: parseTypeSpecification", "packages/apib-parser/src/snowcrash/StringUtility.h: StripMarkdownLink"]}
{"id": "C64", "title": "Values and type names in MSON", "statement": "A value between emphasis is a variable of that name, backticks are removed, a lone `*` is a variable without a name, everything else is taken literally; the six base type words name base types and any other text a named type.", "quantifier": "every text", "why_tests_cant": "All texts with any mix of emphasis and backticks.", "anchors": ["packages/apib-parser/src/snowcrash/MSONUtility.h: checkVariable, parseValue, parseSymbol, parseTypeName"]}
{"id": "C65", "title": "Members refer to declared types and keep their values", "statement": "A member has the kind of its base type or of the named type it refers to; parsing it is an error exactly if it (or a nested type of its array or enumeration) names a type that is not declared; its comma separated values are kept in order, as one text if the type is primitive, and make it an array if it has no type.", "quantifier": "every signature, every table of named types", "why_tests_cant": "All signatures and tables.", "anchors": ["packages/apib-parser/src/snowcrash/MSONUtility.h: parseTypeDefinition, parsePropertyName, addDependency", "packages/apib-parser/src/snowcrash/MSONValueMemberParser.h: useSignatureData"]}
{"id": "C66", "title": "Flags of MSON types", "statement": "The flags of a member or a named type appear as `typeAttributes` in a fixed order (required, optional, fixed, fixedType, nullable), once each, and the attribute is missing if none is set; a member whose flags exclude one another (fixed and optional, required and optional, default and sample, fixed and fixedType) is warned about once for each pair, and nothing else is said about flags; named types are not checked.", "quantifier": "every member and named type, every registry of named types", "why_tests_cant": "All combinations of flags in members of any structure.", "anchors": ["packages/drafter/src/RefractDataStructure.cc: MsonTypeAttributesToRefract, CheckTypeAttributesClash, MsonMemberToRefract, MSONToRefract"]}
{"id": "C67", "title": "Type of a converted member", "statement": "The element made of a member has the basic type its type name stands for (through its chain of named types); without one it is an array if it has several values, an object if a type is named that cannot be found or it has sections of members, else the type of the items of the list it is in. A named type is what its parent stands for, else an object, and nothing is made of it exactly if nothing is written of it; the name of the element is that of the type and its id the name of the named type.", "quantifier": "every member and named type, every registry (any inheritance depth)", "why_tests_cant": "Unbounded inheritance chains and arbitrary registries.", "anchors": ["packages/drafter/src/RefractDataStructure.cc: GetMsonTypeFromName, MsonMemberToRefract, MSONToRefract; MsonTypeSectionToApie.cc: ResolveType", "packages/drafter/src/NamedTypesRegistry.cc"]}
{"id": "C68", "title": "Values of primitive members", "statement": "A string, number or boolean member has as its content what its line reads as, or the fallback of its type (empty text, 0, false) with a warning if the line is not a value of the type; its samples are the line if flagged so (or variable) and then the sample sections, its default the last default written; every text that is not of the type is warned about exactly once, and nothing else is.", "quantifier": "every member of such a type with any sections, every registry", "why_tests_cant": "All texts and any number of sections in any order.", "anchors": ["packages/drafter/src/RefractDataStructure.cc: ExtractValueMember, ExtractTypeSection, SaveValue, CheckValueValidity, AllElementsToAtribute, LastElementToAttribute; Serialize.cc: LiteralTo"]}
{"id": "C69", "title": "Content of arrays and objects", "statement": "The content of an array or object is, in this order, the types between its brackets, the values of its line and the members of its sections; nothing is lost, except that of several object members of one name only the last stays. Its samples are the list of its line, if flagged so, and one list per sample section; its default is the last default list.", "quantifier": "every member and named type of such a type with any nested sections, every registry", "why_tests_cant": "Unbounded nesting and number of sections.", "anchors": ["packages/drafter/src/RefractDataStructure.cc: ExtractTypeSection, ExtractTypeDefinition, SaveValue, AllElementsToAtribute, LastElementToAttribute; ElementInfoUtils.h: Merge"]}
{"id": "C70", "title": "Enumerations", "statement": "An enumeration lists every entry that is written of it (types between its brackets, values of its line, its sections, values that are given as its value, sample or default), each once and in the order of writing; an entry that repeats an earlier one of the same section is warned about once, and there is no warning if none is repeated. Its content is the value that is given (the last, if there are several); its samples and its default are values of it.", "quantifier": "every member and named type that is an enumeration with any nested sections, every registry", "why_tests_cant": "Any number of entries of any shape, in every order, with every pattern of repetitions.", "anchors": ["packages/drafter/src/RefractDataStructure.cc: ExtractTypeSection, ExtractValueMember, ExtractTypeDefinition, SaveValue<EnumElement>, AllElementsToAtribute, LastElementToAttribute", "packages/drafter/src/ElementComparator.h"]}
{"id": "C71", "title": "Descriptions of MSON types", "statement": "The description of an element that is made of a member or a named type is made of the description on its line and the description blocks below it, one below the other in their order; without any there is none, and no text of them is lost. (Refuted for the line of an unnamed member without a value, e.g. an object in an array: its description is dropped.)", "quantifier": "every member and named type with any sections, every registry", "why_tests_cant": "Any number of blocks, at any depth, any texts.", "anchors": ["packages/drafter/src/RefractDataStructure.cc: DescriptionToRefract, ExtractTypeSection, ValueTrait, RefractElementFromProperty, RefractElementFromMSON"]}
{"id": "C72", "title": "Properties, inclusions and alternatives", "statement": "A property becomes a member with its key and its value, marked as variable if the name is a variable; it is left out exactly if no name can be shown for it, and members that are not properties are never left out; members are converted one by one in their order with their warnings in that order; an inclusion becomes a reference to the content of the type and a one-of becomes a select with one option per alternative, which holds what is made of it.", "quantifier": "every list of members of any nesting, every registry", "why_tests_cant": "Unbounded nesting of alternatives and groups, all names.", "anchors": ["packages/drafter/src/MsonMemberToApie.h", "packages/drafter/src/MsonOneOfSectionToApie.cc", "packages/drafter/src/MsonTypeSectionToApie.cc", "packages/drafter/src/RefractDataStructure.cc: GetPropertyKey, validKey, RefractElementFromProperty"]}
{"id": "C73", "title": "The conversion of MSON ends with a result", "statement": "Converting a data structure throws no error, dereferences no null pointer and does not run for ever, if the inheritance of the registry has no cycle and the syntax tree is as the parser should make it (classes of sections are known, members are not empty, groups are in one-ofs only, keys are texts, members of a type that holds a text have one value, types of the values of enumerations are known). Every registry that is made of the built-in one by additions and removals is suitable otherwise.", "quantifier": "every syntax tree of any depth, every registry that arises from any sequence of additions and removals", "why_tests_cant": "Absence of every kind of failure over unbounded trees and registries.", "anchors": ["packages/drafter/src/RefractDataStructure.cc: MSONToRefract, MsonMemberToRefract, SaveValue<EnumElement>", "packages/drafter/src/MsonTypeSectionToApie.cc", "packages/drafter/src/MsonOneOfSectionToApie.cc", "packages/drafter/src/ElementComparator.h", "packages/drafter/src/refract/Registry.cc: FindRootAncestor"]}
{"id": "C74", "title": "Recognition of headers", "statement": "The functions that match and capture regular expressions do what POSIX says of the expression in the source. A header starts a resource exactly if its text has one of the forms `/uri`, `METHOD /uri`, `name [/uri]`, `name [METHOD /uri]`; an action exactly if it is `METHOD`, `METHOD /uri`, `name [METHOD]` or `name [METHOD /uri]`; a group exactly if it is `Group name`; data structures exactly if its first line is `Data Structure(s)`; groups, data structures and the other two exclude each other; a header of the form of a resource ends the resource before it. (The last is refuted for a header that is also read as a sample or default section, e.g. `Sample: B [/b]`.)", "quantifier": "every text of a header, of any length and any bytes", "why_tests_cant": "All texts, and the meaning of an expression under backtracking over any length; tests try a few texts.", "anchors": ["packages/apib-parser/src/snowcrash/RegexMatch.h", "packages/apib-parser/src/snowcrash/posix/RegexMatch.cc", "packages/apib-parser/src/snowcrash/ResourceParser.h: sectionType", "packages/apib-parser/src/snowcrash/ActionParser.h: sectionType, actionType", "packages/apib-parser/src/snowcrash/ResourceGroupParser.h: sectionType", "packages/apib-parser/src/snowcrash/DataStructureGroupParser.h: sectionType", "packages/apib-parser/src/snowcrash/Signature.cc: SectionKeywordSignature"]}
{"id": "C75", "title": "Parts of an action header", "statement": "From `METHOD` or `METHOD /uri` an action gets exactly the method and no name; from `name [METHOD /uri]` it gets the name without white space around it, the method and the URI between the method and the closing bracket; from any other header nothing; the lines below the first are left for the description. (Refuted for plain headers whose URI ends in a bracket with a method: `GET /a[GET]`.)", "quantifier": "every text of a header", "why_tests_cant": "All texts; which split a regular expression chooses when several are possible.", "anchors": ["packages/apib-parser/src/snowcrash/ActionParser.h: actionHTTPMethodAndName, processSignature"]}
{"id": "C76", "title": "Parts of resource and group headers", "statement": "A resource gets from its header exactly the URI, the name without white space around it and, if the header names a method, an action with that method; every recognised resource header gives a URI; a group gets the text after the word `Group` as its name, without white space around it. (Refuted for header texts that end in a form feed or similar, which are recognised but give no URI or name, and for nested brackets.)", "quantifier": "every text of a header", "why_tests_cant": "All texts; ambiguous splits.", "anchors": ["packages/apib-parser/src/snowcrash/ResourceParser.h: processSignature, matchNamedResourceHeader", "packages/apib-parser/src/snowcrash/ResourceGroupParser.h: processSignature"]}
{"id": "C77", "title": "Recognition of list items", "statement": "A list item starts a headers, parameters, attributes, body, schema, values, relation, one-of, include, default/sample, items or properties section exactly if its first line has the form of that word, and a request, response or model exactly if its first line starts with Request or Response or has the form `name Model (type)`; a payload has sections exactly if one of its blocks is such a section; no line has the form of two of these sections.", "quantifier": "every list item with any blocks and texts", "why_tests_cant": "All texts and all nestings of blocks.", "anchors": ["packages/apib-parser/src/snowcrash/HeadersParser.h", "packages/apib-parser/src/snowcrash/ParametersParser.h", "packages/apib-parser/src/snowcrash/AttributesParser.h", "packages/apib-parser/src/snowcrash/AssetParser.h", "packages/apib-parser/src/snowcrash/PayloadParser.h: sectionType, payloadSignature", "packages/apib-parser/src/snowcrash/RelationParser.h", "packages/apib-parser/src/snowcrash/ValuesParser.h", "packages/apib-parser/src/snowcrash/MSONTypeSectionParser.h", "packages/apib-parser/src/snowcrash/MSONOneOfParser.h", "packages/apib-parser/src/snowcrash/MSONMixinParser.h: sectionType"]}
{"id": "C78", "title": "Signatures of payloads", "statement": "From a first line of the form `Request name (media type)`, `Response status (media type)` or `name Model (media type)` a payload gets exactly the name or status and the media type, without white space around them, and nothing is reported; it gets them from nothing else; a line that starts with Request or Response and does not have the form is reported as malformed; a response without a status gets 200 with a warning, so it always has one; the lines below are kept. (Refuted for lines that begin with white space other than blanks; a media type with a backslash is malformed.)", "quantifier": "every first line and every text", "why_tests_cant": "All lines; which of the ways to match an unanchored expression is taken.", "anchors": ["packages/apib-parser/src/snowcrash/PayloadParser.h: parseSignature, processSignature"]}
{"id": "C79", "title": "Relations and relative URIs", "statement": "The identifier of a relation is what follows the colon, provided it is empty or a lower case letter followed by lower case letters, digits, dots and hyphens; in all other cases it is reported and stays empty. A header is reported to have a relative URI exactly if it is `name [METHOD text]` with a text without slashes.", "quantifier": "every text", "why_tests_cant": "All texts.", "anchors": ["packages/apib-parser/src/snowcrash/RelationParser.h: processSignature", "packages/apib-parser/src/snowcrash/ActionParser.h: checkForTypoMistake"]}
{"id": "C80", "title": "Bodies and schemas", "statement": "The body of a request, response or model with sections is the text of its last Body section (the lines after the word, then its blocks up to one that starts a section; code as it stands, other blocks as in the source), followed by the paragraphs and blocks of code directly after the section, each made to end with an empty line; the schema is the text of its last Schema section; without such a section there is no body or schema. Without any section the body is all that follows the first line, unless that is a reference to a model: then the payload is what the model says, or waits for it. Every block that does not become part of the payload is reported. (Refuted: an additional body, reported as ignored, replaces the first; an empty block of code after a body is read out of range.)", "quantifier": "every payload item, every source, every table of models", "why_tests_cant": "All block structures and texts; the order of blocks matters.", "anchors": ["packages/apib-parser/src/snowcrash/PayloadParser.h: SectionProcessor<Payload>", "packages/apib-parser/src/snowcrash/AssetParser.h: SectionProcessor<Asset>", "packages/apib-parser/src/snowcrash/CodeBlockUtility.h", "packages/apib-parser/src/snowcrash/SectionParser.h: parse, parseNestedSections"]}
{"id": "C81", "title": "Checks of requests and responses", "statement": "A request is warned of as empty exactly if it has neither body nor attributes, does not wait for a model, and has either neither headers nor parameters, or a Content-Length or Transfer-Encoding header with a value (the last one counts); a response is warned of exactly if it has a body, does not wait for a model, and its status is 204, 304 or 1xx. Nothing else gives these warnings.", "quantifier": "every payload item", "why_tests_cant": "All items; the check comes last and must see the final state.", "anchors": ["packages/apib-parser/src/snowcrash/PayloadParser.h: finalize, checkRequest, checkResponse"]}
{"id": "C82", "title": "Items of data structures are read one by one", "statement": "What is made of a list item in a data structure (as a property, value, Include, One of, type section or Attributes) depends on the item and on what is known of the named types, and on nothing else: not on its position, the items around it, the sections it is in, or what was reported before. Exactly that item is read; reports are appended; reading always ends, with a result or an exception. (Refuted: that every list item gives a result: `- a ()` makes the parser read past the end of a string.)", "quantifier": "every tree of blocks, of any depth and size, every position, every state of the parser", "why_tests_cant": "All nestings of blocks: the parsers call each other to any depth and share one report and one stack of sections.", "anchors": ["packages/apib-parser/src/snowcrash/MSONValueMemberParser.h, .cc", "packages/apib-parser/src/snowcrash/MSONPropertyMemberParser.h", "packages/apib-parser/src/snowcrash/MSONTypeSectionParser.h, .cc", "packages/apib-parser/src/snowcrash/MSONOneOfParser.h, .cc", "packages/apib-parser/src/snowcrash/MSONMixinParser.h", "packages/apib-parser/src/snowcrash/AttributesParser.h", "packages/apib-parser/src/snowcrash/SectionParser.h: parse, parseNestedSections"]}
{"id": "C83", "title": "What a member of a data structure is made of", "statement": "A property, value or Attributes item is what its first line says, with what the blocks under it add, in order: text becomes its description, nested list items its members, type sections, Includes and One Ofs its sections. When all list items under an object are plain properties, its members are exactly those properties in order (array: values); a paragraph under it is its description. A block that is out of place ends the reading of the item's blocks.", "quantifier": "every list item, every list of blocks under it, of any length and depth, every state of the named types", "why_tests_cant": "Any number of blocks of any kinds in any order, nested to any depth.", "anchors": ["packages/apib-parser/src/snowcrash/MSONValueMemberParser.h, .cc", "packages/apib-parser/src/snowcrash/MSONPropertyMemberParser.h", "packages/apib-parser/src/snowcrash/MSONUtility.h", "packages/apib-parser/src/snowcrash/AttributesParser.h", "packages/apib-parser/src/snowcrash/SectionParser.h: parse, parseNestedSections"]}
{"id": "C84", "title": "What type sections, One Of and Include are made of", "statement": "A Default/Sample/Items/Members/Properties section is what its line says (a value for a text, values for a list) followed by the elements under it: every member item, Include or One Of that belongs there, in order, with all their warnings; under a text the blocks are joined into its value. A section that has no place in a type (Properties in a list, Items in an object) contributes nothing, whatever stands under it, and gives one warning. A One Of is the elements under it, in order; an empty one is reported. An Include is the type it names; whatever stands under it changes nothing and gives exactly one warning per block.", "quantifier": "every list item, every list of blocks under it of any length and depth, every base type, every state of the named types", "why_tests_cant": "Any number of blocks of any kinds in any order, nested to any depth.", "anchors": ["packages/apib-parser/src/snowcrash/MSONTypeSectionParser.h, .cc", "packages/apib-parser/src/snowcrash/MSONOneOfParser.h, .cc", "packages/apib-parser/src/snowcrash/MSONMixinParser.h", "packages/apib-parser/src/snowcrash/SectionParser.h: parse, parseNestedSections"]}
{"id": "C85", "title": "A request, a response or a model, exactly", "statement": "The payload that a request, response or model section gives, and the list of its warnings in their order, are determined by its blocks as follows and in no other way: the name and media type of its first line (a response without a status has 200 and is reported); with sections, the lines and blocks before the first section are the description, and each further block is a Headers, Body, Schema, Attributes or Parameters section, continues the body (and is reported), or is ignored (and reported); without sections, the lines and blocks are the body or, as the first of them, a reference to a model, after which nothing counts (and is reported). Content that is not code, code that hides a section or a reference, a second body, parameters outside of requests, headers that a model hides, an empty request and a forbidden body are each reported, and nothing else is. A payload that cannot be read has a block without text, or a description of a single line feed.", "quantifier": "every list item and all its blocks, every kind of payload, every source, every table of models", "why_tests_cant": "Any number of blocks of any kinds, in any order, with any texts.", "anchors": ["packages/apib-parser/src/snowcrash/PayloadParser.h", "packages/apib-parser/src/snowcrash/AssetParser.h", "packages/apib-parser/src/snowcrash/HeadersParser.h", "packages/apib-parser/src/snowcrash/CodeBlockUtility.h", "packages/apib-parser/src/snowcrash/SectionParser.h: parse, parseNestedSections"]}
{"id": "C86", "title": "An action, exactly", "statement": "The action that a header gives, and the list of its warnings in their order, are determined by the blocks up to the next header of an action, resource, group or data structures (or up to a model) as follows and in no other way: method, name and URI from the first line of the header; its further lines and the blocks before the first section are the description; a Relation section gives the identifier (or is reported); requests and responses enter the last example, except that a request after a response begins a new one, and one that is there twice (same name and content type), or a body that the method forbids, is reported; text after a request or response continues its body and is reported; Headers are put in front of those of all payloads and are reported as deprecated; Body and Schema items outside of a payload and everything else is ignored and reported; at the end parameters that the URI of the action does not have, and a missing response, are reported, and nothing else is. The parser stops out of range or not at all.", "quantifier": "every header and all blocks after it, every source, every table of models, every reader of attributes and parameters", "why_tests_cant": "Any number of blocks of any kinds, in any order, with any texts.", "anchors": ["packages/apib-parser/src/snowcrash/ActionParser.h", "packages/apib-parser/src/snowcrash/RelationParser.h", "packages/apib-parser/src/snowcrash/HeadersParser.h", "packages/apib-parser/src/snowcrash/ParametersParser.h: checkParametersEligibility", "packages/apib-parser/src/snowcrash/CodeBlockUtility.h: addDanglingAsset", "packages/apib-parser/src/snowcrash/BlueprintUtility.h: MatchPayload", "packages/apib-parser/src/snowcrash/SectionParser.h: parse, parseNestedSections"]}
{"id": "C87", "title": "A resource, exactly", "statement": "The resource that a header gives, the models defined after it, the error, the blocks that are left and the list of warnings in their order are determined by the blocks after the header as follows and in no other way: name and URI from the header; if the header is also that of an action, that action (up to the block at which an action ends) is all there is; otherwise the blocks before the first section are the description, then Parameters, Headers, Attributes, models and actions in any order up to the next header of a resource, a group or the data structures; a model without a name gets that of the resource, is defined unless its name is taken or missing, which is the error, and text after it continues its body (and that of the defined model of its name); an action with the method and URI, or the relation, of another, and parameters that the URI does not have, are reported; everything else is ignored and reported; headers of the resource are put in front of those of all payloads of its actions; and nothing else is reported. The parser stops out of range or not at all.", "quantifier": "every header and all blocks after it, every source, every table of models, every reader of attributes and parameters, every set of named types", "why_tests_cant": "Any number of blocks of any kinds, in any order, with any texts.", "anchors": ["packages/apib-parser/src/snowcrash/ResourceParser.h", "packages/apib-parser/src/snowcrash/ActionParser.h", "packages/apib-parser/src/snowcrash/PayloadParser.h", "packages/apib-parser/src/snowcrash/HeadersParser.h", "packages/apib-parser/src/snowcrash/ParametersParser.h: checkParametersEligibility", "packages/apib-parser/src/snowcrash/CodeBlockUtility.h: addDanglingAsset", "packages/apib-parser/src/snowcrash/BlueprintUtility.h: MatchAction, MatchRelation", "packages/apib-parser/src/snowcrash/SectionParser.h: parse, parseNestedSections"]}
{"id": "C88", "title": "A group of resources, exactly", "statement": "The group that a header gives - its name, its elements in order, the models defined after it, the error, the blocks that are left and the list of warnings in their order - is determined by the blocks after the header as follows and in no other way: if the header is that of a resource, the group has no name and begins with that resource; otherwise the name is that of the header, and the blocks before the first resource, the next group or the data structures are its text; then resources (as in C87), each of which is reported if its URI is already that of a resource of the group or of the blueprint; other blocks are ignored and reported; and nothing else is reported. Actions without a resource are part of the text and not reported, except after a header 'METHOD/uri' without a blank. The parser stops out of range or not at all.", "quantifier": "every header and all blocks after it, every source, every table of models, every set of URIs already used, every reader of attributes and parameters", "why_tests_cant": "Any number of resources, any blocks in any order.", "anchors": ["packages/apib-parser/src/snowcrash/ResourceGroupParser.h", "packages/apib-parser/src/snowcrash/ResourceParser.h: isResourceDuplicate", "packages/apib-parser/src/snowcrash/SectionProcessor.h", "packages/apib-parser/src/snowcrash/SectionParser.h: parse, parseNestedSections"]}
{"id": "C89", "title": "A named data structure, exactly", "statement": "The type that a header of a data structure gives - its name, its type, its sections in order, the types known after it, the blocks that are left and the list of warnings in their order - is determined by the header and the blocks after it as follows and in no other way: name and type are on the header (an object if no type is given); text directly under it is a description; members follow, and sections under headings (Properties, Items, Sample, Default) which end where their base type ends them; the type ends at the next header that is no such section, at a section without a place in its base type (which is reported), or at a block its base type does not allow; a reserved character in a name without backticks is reported; nothing else is reported. Of an object all blocks to the next header are taken and list items become its properties in their order. A type section that is a list item directly under the header makes the parser give up the whole document.", "quantifier": "every header and all blocks after it, every position among its siblings, every source, every table of types, any warnings before", "why_tests_cant": "Any number of blocks, any nesting depth, any mix of sections.", "anchors": ["packages/apib-parser/src/snowcrash/MSONNamedTypeParser.h", "packages/apib-parser/src/snowcrash/MSONValueMemberParser.h: processNestedMembers, blockDescription", "packages/apib-parser/src/snowcrash/MSONTypeSectionParser.h", "packages/apib-parser/src/snowcrash/SectionParser.h: HeaderSectionAdapter, parse, parseNestedSections"]}
{"id": "C90", "title": "A group of data structures, exactly", "statement": "What the header '# Data Structures' and the blocks after it give - the types in their order, what is known of named types afterwards, the blocks that are left and the warnings in their order - is determined as follows and in no other way: every header that is no keyword begins a named type (C89); a type whose name the blueprint had before the group is dropped and reported, all others are kept; the group ends at the next header of a resource, a group or data structures; all other blocks are ignored and reported. Two types of one group with the same name are both kept and not reported by the group parser. A group is given up only if one of its types is.", "quantifier": "every header and all blocks after it, every position among its siblings, every source, every table of types, every set of names that the blueprint has", "why_tests_cant": "Any number of types, any blocks in any order.", "anchors": ["packages/apib-parser/src/snowcrash/DataStructureGroupParser.h", "packages/apib-parser/src/snowcrash/MSONNamedTypeParser.h", "packages/apib-parser/src/snowcrash/SectionProcessor.h: isUnexpectedNode, processUnexpectedNode", "packages/apib-parser/src/snowcrash/SectionParser.h: parse, parseNestedSections"]}
{"id": "C91", "title": "Which types a document declares", "statement": "Before anything is parsed, a look-ahead over all blocks of the document decides which named types there are. Exactly these are declared, in the order of the document: every header that is no keyword and stands under '# Data Structures' with only headers of types, of their sections or '# Data Structures' between, under the name and with the type on the header; and every '+ Attributes' after the header 'name [/uri]' of a resource with no other header of a resource, of data structures or of an action between, under that name. Every header that is no keyword but has a method and a relative URI in brackets is reported, and nothing else. So every type that the parser of a group of data structures reads is declared, under the name it gets if it is no variable, unless the header of an action comes before it in the group; then it is not declared, although it is read. Two declarations of one name are an error. The look-ahead always ends, and is given up only where the signature of a declared type is read past its end.", "quantifier": "every list of blocks of a document", "why_tests_cant": "Any number of headers and items in any order.", "anchors": ["packages/apib-parser/src/snowcrash/BlueprintParser.h: preprocessNestedSections, fillNamedTypeTables, checkForPossibleSectionMistakes", "packages/apib-parser/src/snowcrash/ActionParser.h: checkForTypoMistake, actionType", "packages/apib-parser/src/snowcrash/ResourceParser.h: matchNamedResourceHeader", "packages/apib-parser/src/snowcrash/Signature.cc: SectionKeywordSignature"]}
{"id": "C92", "title": "The whole document", "statement": "What a document gives is determined by its blocks: the metadata of the paragraphs at its beginning that have a line with a key and a value; the name of the header that follows, if that header begins no section, and as description all text up to the first section; then, to the end of the document, the resources, groups and data structures in the order of the document, each read with the models, the named types, the resources and the groups before it in mind; then every request and response that refers to a model which comes later in the document is filled from that model and checked. No block is left unread and no block of the document itself is reported as ignored; outside of groups there is no text; no reference is left pending, and if no error is reported every reference is resolved; a name is required exactly when the option says so and the document has blocks; a second, third, … group of one name is reported once each.", "quantifier": "every list of blocks of a document, any source and options, any parsers of attributes and parameters", "why_tests_cant": "Any number of sections in any order and nesting, models anywhere in the document.", "anchors": ["packages/apib-parser/src/snowcrash/BlueprintParser.h: processSignature, processNestedSection, preprocessNestedSections, finalize, isResourceGroupDuplicate, checkLazyReferencing, checkResourceLazyReferencing, checkActionLazyReferencing, checkExampleLazyReferencing, checkRequestLazyReferencing, checkResponseLazyReferencing, resolvePendingModels", "packages/apib-parser/src/snowcrash/SectionParser.h: parse", "packages/apib-parser/src/snowcrash/SectionProcessor.h: processDescription, processUnexpectedNode", "packages/apib-parser/src/snowcrash/DataStructureGroupParser.h: isNamedTypeDuplicate", "packages/apib-parser/src/snowcrash/ResourceGroupParser.h: isResourceDuplicate"]}
{"id": "C93", "title": "The parameters section", "statement": "What a Parameters section gives is determined by its blocks: each list item whose blocks or whose first line tell the old or the new syntax is one parameter, with the name, the value, the traits and the description of its first line (in the new syntax the name without backticks), the description extended by the blocks that come before the first section in it, the values of its Values section (old) or the Sample, Default and Members sections (new); a parameter of a name that came before replaces the earlier one, at the end of the list, and is reported; every other block is reported as ignored; contradicting traits, a default of a required parameter, a value that is not among those listed, an empty or second list of values, text under the word Parameters and a section of no parameters are each reported. In the result no two parameters have the same name, and reading ends for every tree.", "quantifier": "every tree of blocks below a Parameters list item, any source, any table of named types", "why_tests_cant": "Trees of any depth and width, every mixture of the two syntaxes and of ignored blocks.", "anchors": ["packages/apib-parser/src/snowcrash/ParametersParser.h: processSignature, processNestedSection, finalize, sectionType", "packages/apib-parser/src/snowcrash/ParameterParser.h: processSignature, processDescription, processNestedSection, processUnexpectedNode, finalize, sectionType, nestedSectionType, getParameterType", "packages/apib-parser/src/snowcrash/MSONParameterParser.h: processSignature, processDescription, processNestedSection, finalize, isDescriptionNode, sectionType", "packages/apib-parser/src/snowcrash/ValuesParser.h: processNestedSection, sectionType"]}
{"id": "C94", "title": "Which list items are parameters, and in which syntax", "statement": "A list item of a Parameters section is a parameter of the old syntax, of the new one, or none at all, never two of these: the first nested list item that is a Sample, Default, Members or Items section, or a Values section, tells; if there is none, the first line does. It must begin with a name (letters, digits, _ . -, percent-encoded characters, within backticks or not); then nothing may follow, or a colon with a value (new), an equals sign with a value (old), traits in brackets, or a description after - (new) or ... (old). Traits that contain enum[...] tell the new syntax, other traits with a backtick the old one; otherwise what follows them tells. Lines of any other form are no parameters. Reading the brackets ends for every text.", "quantifier": "every list item, every text of its first line", "why_tests_cant": "Any text, any nesting of brackets and backticks.", "anchors": ["packages/apib-parser/src/snowcrash/ParameterParser.h: getParameterType, sectionType", "packages/apib-parser/src/snowcrash/SignatureSectionProcessor.h: matchBrackets", "packages/apib-parser/src/snowcrash/StringUtility.h: RetrieveEscaped"]}
{"id": "C95", "title": "The parts of a signature line", "statement": "The first line of a section or list item, `identifier: values (attributes) - content` as far as its kind has these parts, is divided exactly as specified: the identifier ends at the first delimiter of its kind outside of text in backticks, asterisks and underscores; the values follow their delimiter, are split at the commas outside of backticks and end at the attributes or the content; the attributes are split at the commas outside of backticks and nested brackets and end at their closing bracket; the content follows its delimiter; a missing identifier and missing values are reported, and nothing else. There is exactly one such division, for every line but those whose attributes end with nothing between the last comma and the bracket: for these, and only these, the parser reads outside of the string.", "quantifier": "every line, of any bytes and length, and every kind of item", "why_tests_cant": "All texts, with escapes and brackets of any depth, and what is left after each part.", "anchors": ["packages/apib-parser/src/snowcrash/SignatureSectionProcessor.h: parseSignature, parseSignatureIdentifier, parseSignatureValues, parseSignatureAttributes, parseSignatureContent, matchBrackets", "packages/apib-parser/src/snowcrash/StringUtility.h: RetrieveEscaped, StripBackticks"]}
{"id": "C96", "title": "The report on the command line", "statement": "A run of the command line program on an input that the parser ends on writes to its error stream an empty line, then `OK.` or one line with the error (class, code, message, every place), and one line for each warning, in their order; places are written as character offset and length, or with line numbers as line and column of their two ends; it writes the parse result, in the chosen format, to its output unless it only validates; and it exits with the code of the error. It always gets there without line numbers, and with them if the places fit into an int; beyond that it is terminated.", "quantifier": "every input, parse result and choice of options", "why_tests_cant": "All reports, with any number of annotations and places.", "anchors": ["packages/drafter/src/main.cc: ProcessRefract", "packages/drafter/src/reporting.cc: AnnotationToString, PrintReport, GetLineFromMap", "packages/drafter/src/refract/dsd/Number.cc: operator std::int64_t"]}
