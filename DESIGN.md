# Formal model of apiaryio/drafter in Lean 4

## Layout

* `lean/Verif/Model/*.lean` – the model: total computable functions that follow the C++ functions one by one.
  Every definition carries a comment citing the file and lines of `/repo` it models, and says where it simplifies.
* `lean/Verif/Spec/*.lean` – small independent specifications (grammars, readers, reachability, …) written
  without looking at the model's helpers.
* `lean/Verif/Proof/*.lean` – helper lemmas.
* `lean/Verif/Props/*.lean` – the property theorems (`Cnn_…`), each with a non-vacuity `example` beside it.
* `MANIFEST.json` – property → theorem names.  `seeded/LOG.jsonl` – seeded-bug experiments.

C++ is modelled as follows: `std::string` = `List UInt8` (or `List Nat` where bytes are only compared), vectors =
`List`, `std::map`/`std::set` = association lists / lists observed through membership, `size_t` arithmetic = `Nat`
unless the property is about wrap-around (then `BitVec 32`/explicit modulo), exceptions = `Except`, undefined
behaviour (out-of-range index, null dereference) = a distinct outcome constructor (`ub`), possibly non-terminating
loops = fuel or a relation, with divergence proved where it happens.

Suffix convention: `Cnn_name` full statement; `Cnn_name_partial` = proved part, doc-comment says what is missing;
`Cnn_name_refuted`/`…_fails` = kernel-checked proof that the unchanged code violates (part of) the property.

## Plan per property

| id | what is modelled | how proved |
|----|------------------|-----------|
| C01–C03 | `JsonIo.cc` printer; spec = independent recursive-descent JSON reader | induction on the value tree: reader(printer v ++ rest) = (v, rest) |
| C04 | `YamlIo.cc` quoted-string printer; spec = YAML 1.2 §5.7 escape decoder | induction on code points, case split on escape class |
| C05 | `YamlIo.cc` block printer; spec = line-based reader of the YAML subset | mutual induction; refuted for plain keys that are not strings in YAML |
| C06–C07 | `Utf8.h`; spec = RFC 3629 (core `String.utf8EncodeChar` as cross-check) | arithmetic case analysis; refuted for bad continuation bytes |
| C08–C09 | `so/Value.cc` | list induction / refinement to a finite map; symmetry refuted with duplicate keys |
| C10 | `Serialize.cc: isValidNumber`; spec = inductive ECMA-404 grammar | both inclusions, by induction |
| C11 | `SourceMapUtils.cc`; spec = count newlines | list induction on prefix sums; refuted on last line |
| C12–C13 | `ByteBuffer.*`; UB outcome for out-of-range writes | invariants over scan; refuted for truncated tails |
| C14–C16 | `drafter.cc`, `SerializeResult.cc`, `options.cc` with the parser as a parameter | case analysis, fold invariants |
| C17 | `snowcrash.cc: CheckSource/parse` | list induction |
| C18 | `ConversionContext.cc: warn` | fold invariant |
| C19 | `SerializeSo.cc` over an element tree | structural induction |
| C20–C22 | `BlueprintParser.h`, `MSONUtility.h` tables; spec = transitive closure | fixpoint iteration, measure = number of absent names |
| C23 | `NamedTypesRegistry.cc` comparator | witness for non-transitivity; irreflexive/asymmetric proved |
| C24–C25 | `Registry.cc` | refinement to map; fuel + divergence proof on cycles; termination from C21's success |
| C26–C29 | `InfoElements`, `dsd/Object`, `dsd/Extend`, `Element::clone` | list / tree induction |
| C30 | `Cardinal.h`, `ElementSize.cc` | `BitVec 32` wrap-around witness, exactness below overflow |
| C31–C33 | `JsonValue.cc`, `JsonSchema.cc`; spec = JSON Schema draft-07 validator subset | structural induction, refutations where false |
| C34–C35 | `HeadersParser.*` | list induction; `!` refuted |
| C36 | `Mediatype.h`, `MediaType.cc`, `MediaTypeS11n.cc` | PEG parser model, round-trip |
| C37–C38 | `Uritemplate.h`, `recover.h`, `UriTemplateParser.cc` | PEG model; `%A` refuted |
| C39 | `ParametersParser.h` | fold invariant |
| C40–C42, C49 | `StringUtility.h`, `SignatureSectionProcessor.h` | loop invariants, UB outcome |
| C43 | `SectionParser.h` generic driver with abstract processors | measure on remaining nodes |
| C44 | `BlueprintParser.h` lazy referencing | list induction |
| C45–C46 | `RefractAPI.cc` | list equations / decision table |
| C47–C48 | `HTTP.cc`, `BlueprintParser.h: parseMetadata` | arithmetic, list induction |
| C50 | `RefractAPI.cc` conversion of a whole blueprint (data structures as a parameter) | structural induction over the blueprint; readers of the element tree |
| C51–C52 | `ParameterParser.h` attribute list and value checks | fold invariants, decision table |
| C53 | `BlueprintParser.h`, `ResourceGroupParser.h`, `ResourceParser.h`, `ActionParser.h`, `DataStructureGroupParser.h` as section processors on top of the C43 driver; recognisers as parameters | simulation by a one-pass reader, measure on nodes |
| C54 | `ActionParser.h` grouping of payloads | fold invariant, uniqueness |
| C55–C57 | `ExpandVisitor.cc`, `IsExpandableVisitor.cc` (`partial_fixpoint`, outer `none` = does not end) | lexicographic induction on (registered names not on the stack, size of the element) |
| C58 | `ElementUtils.cc` look-ups, against `Spec/Attributes.lean`, which mentions no function of the model; it pins the notions that the specifications of C30–C33 use | case analysis on the attribute list |
| C59–C61 | `MarkdownParser.cc`, `MarkdownNode.cc`: state machine over Sundown's callbacks (Sundown itself is not in the repository; its callbacks are the input) against an inductive relation `Describes` between callbacks and described blocks | induction on the relation; invariants over arbitrary callback sequences |
| C62–C65 | `MSONUtility.h`, `useSignatureData` of `MSONValueMemberParser.h`: functions on byte strings (the regular expression for links read from the end) against inductive relations `Stands`, `Names`, `Specifies`, `Denotes` | the loop with its in-place trimming is shown equal to one without, then induction on the relations; every text is in the relation, so the statements are equivalences |
| C66–C69 | `RefractDataStructure.cc`, `Mson*ToApie.cc`, `RefractElementFactory.cc`: the conversion of the MSON AST to elements as mutually recursive functions in a monad of warnings and stops (`Model/DataStructure.lean`) against inductive relations `StandsFor`, `MemberIs`, `Reads`, `Entry`, `Item`, `Hint`, `Content`, `Lists` (`Spec/DataStructure.lean`) | the result of each step is characterised by an invariant on the collected parts (`Converted`, `SectionParts`), then read off; structural mutual induction for nested members; existence and uniqueness of the relations are proved too |
| C70–C72 | the same conversion: `ElementData<EnumElement>` (gathering, merging, comparison of elements by `ElementComparator`), descriptions, keys of properties, `MsonMemberToApie.h`, `MsonOneOfSectionToApie.cc` | `Alike`/`Gathered`/`Filtered`/`Enumerates` are inductive specifications; `alike_iff` relates the comparator to `Alike`; the gathering is an induction over the list of written entries; the rest reads off the invariants of C66–C69 |
| C73 | the same conversion; syntax trees that are fit are an inductive predicate (`Spec/DataStructureFit.lean`) | mutual structural induction; the comparison of elements cannot fail since the name of each converted element determines its type (`Coherent`), by uniqueness of roots |
| C74 | `Model/Regex.lean` reads an expression into a syntax tree and matches by backtracking; `Model/Recognise.lean` has the expressions of the sources; `Spec/Regex.lean` is the language of an expression, `Spec/Recognise.lean` the forms of lines | soundness and completeness of the matcher for the language; the language of every expression computed; forms exclude each other by their first letters and brackets |
| C75, C76 | captures as in POSIX: the leftmost, then longest for each group from left to right | uniqueness of the split of a line into blanks, name, method and URI, where there is one; counterexamples where there is none |
| C77 | recognition of list items in the same model; which blocks start a section of any kind (`C77_keyword`), what a `Body`, `Schema` or `Headers` item is (`C77_asset`) | the same, first three letters tell the words apart |
| C78, C79 | `payloadParts`, `payloadHead`, `relationIdentifier`, `typo` in `Model/Recognise.lean`; the forms in `Spec/Recognise.lean` | the longest match contains every form of the line; its parts are determined since names have no parenthesis |
| C80, C81 | the processors of payloads, assets and headers (`Model/Payload.lean`) run by the section parser of `Model/Section.lean` with the recognition of `Model/Recognise.lean`; what the parsers of attributes and parameters make of their section is a parameter; `Spec/Payload.lean` | the loops of the section parser as recursions on the blocks (`Proof/PayloadLoop.lean`), then induction on the blocks |
| C82 | the processors of MSON members, type sections, `One Of`, `Include`, `Attributes` and named types (`Model/MsonParser.lean`), which call each other, run by the section parser of `Model/Section.lean`; built by recursion on a bound of the depth of blocks; an exception of `addDependency` is a field of the table of types, not a stop; `Spec/MsonParser.lean` | the loops of the section parser as recursions on the blocks (`Proof/MsonLoop.lean`), the parsers as functions of one item (`Proof/MsonReaders.lean`, induction on the bound), independence of the bound (`Proof/MsonMeaning.lean`, induction on the depth) |
| C83 | as C82; the relation `Content` (`Spec/MsonParser.lean`) between the blocks under an item and what they add, one clause per kind of block | each kind of block as one step of the loop (`Proof/MsonSteps.lean`), then induction on the blocks (`Proof/MsonWalk.lean`, `Proof/MsonContent.lean`), the first lines (`Proof/MsonLines.lean`) |
| C84 | as C82; the relations `Heading`, `PartBlocks`, `Choices`, `Included`, `Stray` of `Spec/MsonSections.lean` | each kind of block as one step of the loop, then induction on the blocks (`Proof/MsonSections.lean`); the word `Include` via the captures of the regular expression |
| C85 | as C80; the relation `PayloadRead` of `Spec/PayloadParts.lean`: each kind of block, its effect and its warnings | each relation equals the function that models it (`Proof/PayloadParts`, `PayloadSections`, `PayloadRead`), by induction on the blocks; both directions, so that nothing else is reported |
| C86 | `Model/Action.lean`: the processors of actions and relations, run by the section parser of C43 with the payload parser of C85; the relation `ActionRead` of `Spec/Action.lean` | the header adapter in general (`Proof/HeaderLoop`), which blocks end an action and which are its sections by the language theorems of C74/C77 (`Proof/ActionKinds`), each relation equals its function (`Proof/ActionParts`, `Proof/Action`), both directions |
| C87 | `Model/Resource.lean`: the processor of resources, run by the section parser of C43 with the action parser of C86 and the payload parser of C85; the relation `ResourceRead` of `Spec/Resource.lean` | the header adapter with sections of several blocks in general (`Proof/RunLoop`), which blocks end a resource and which are its sections by the language theorems of C74/C77 (`Proof/ResourceKinds`), each relation equals its function (`Proof/ResourceParts`, `Proof/Resource`), both directions |
| C88 | `Model/Group.lean`: the processor of groups, run by the section parser of C43 with the resource parser of C87; the relation `GroupRead` of `Spec/Group.lean` | the run lemmas of `Proof/RunLoop` with the exclusive and the default layout; which blocks close a group by the language theorems (`Proof/GroupKinds`); each relation equals its function (`Proof/Group`), both directions |
| C89 | `Model/MsonParser.lean`: the parser of named types (`parseNamed`), run by the section parser of C43; the relation `TypeRead` of `Spec/NamedType.lean` | the loop of a header section as a function of the blocks after the header (`Proof/SectionMany`); the run equals that function wherever the header stands (`Proof/NamedType`); each relation equals its function (`Proof/NamedTypeSpec`), both directions |
| C90 | `Model/DataGroup.lean`: the processor of groups of data structures, run by the section parser of C43 with the parser of C89; the relation `Types` of `Spec/DataGroup.lean` | the header loop of `Proof/SectionMany`; which headers begin a type or close the group by the language theorems; the relation equals the function (`Proof/DataGroup`), both directions |
| C91 | `Model/Lookahead.lean`: the loop of the look-ahead; the relations `Declarations` and `Mistakes` of `Spec/Lookahead.lean`, which say where a block stands by the blocks before it | which section a block begins by the language theorems of C74, C77; an invariant that relates the remembered place to the blocks before; the relations equal the function (`Proof/Lookahead`), both directions |
| C92 | `Model/Document.lean`: the processor of the blueprint, run by the section parser of `Model/Section.lean`, on top of the parsers of groups (C88), data structures (C90), the look-ahead (C91), the tables of named types (C29) and metadata; the relation `DocumentRead` of `Spec/Document.lean` | the phases of the section parser give metadata, name, description and the loop over sections; the loop equals `Sections` by induction on the blocks that are left; the references by induction on the elements (`Proof/Document`, `Proof/DocumentSpec`), both directions |
| C93 | `Model/ParametersParser.lean`: the processors of the section, of values, and of parameters in both syntaxes, run by the section parser, on top of the MSON parsers (C82) and the traits (C51, C52); the relation `SectionRead` of `Spec/ParametersParser.lean` | each processor as an equivalence, bottom up, by induction on the blocks (`Proof/ParametersValues`, `ParametersOne`, `ParametersSection`), both directions |
| C94 | `getParameterType`, `parameterType` and `brackets` of `Model/ParametersParser.lean` (regular expressions: C53); the relation `LineTells` of `Spec/ParameterLine.lean`, which C93 uses | the longest name by the language of the expression; the brackets by induction on a relation that says how they are read, and its totality by induction on the length; a case distinction on what follows |
| C95 | `parseSignature` of `Model/Signature.lean` and `signatureWarnings` of `Model/MsonParser.lean`; the relation `SignatureLine` of `Spec/SignatureLine.lean`, which names no function of the parser and is what the specifications of C83, C84, C89, C91 and C93 use for the lines they read | for each loop, that it computes the relation of its part from any position; the relations are functional; torn attributes are the complement of the lists |
| C96 | `ProcessRefract`, `PrintReport` and `AnnotationToString` in `Model/CommandLine.lean`, on top of the model of `drafter.cc`; the relation `Written` of `Spec/CommandLine.lean` | the annotations of the result are those of the report (shape of `wrapRefract`); for each, reading back what was stored: digits and `stoi`, the nested source map; induction on the lists |

## Trusted base

* Lean 4.33.0 kernel; axioms at most `propext`, `Classical.choice`, `Quot.sound` (checked with `#print axioms` on every
  theorem in `MANIFEST.json`; vcheck replays all modules).  No own axioms, no compiled evaluation.
* Fidelity of the model to the C++ text: by reading only; the code is neither built nor run here.
* The semantics of PEGTL (the submodule is not in `/repo`): `seq`, `sor`, `opt`, `star`, `plus`, `at`, `not_at`, `until`, `must`,
  `if_must`, actions and `recover` are modelled from the library's documented PEG semantics (C36–C38).
* `regcomp`/`regexec` of libc are modelled by POSIX: extended expressions over bytes (C locale), leftmost-longest by backtracking; the groups inside
  a repetition are not recorded (no expression of the code uses one) (C74–C77). In older parts where a property depends on one, the expression is re-stated as a small Lean matcher next to its
  citation (C42, C47, C51); elsewhere (C43, C53) the answer of the recogniser is a parameter, so the theorem holds whatever it answers.
* Not modelled: the Sundown Markdown parser (C), iostream formatting other than where stated, memory allocation, C++ object
  lifetime other than the out-of-range accesses and null dereferences represented as an outcome.

## Coverage

| code | modelled in | not modelled |
|------|-------------|--------------|
| `drafter.cc`, `options.cc`, `SerializeResult.cc`, `ConversionContext.cc`, `snowcrash.cc` | `Api`, `CommandLine` (`main.cc`, `reporting.cc`) | version strings, options and files of the command line (`config.cc`, the streams of `main.cc`) |
| `utils/so/{JsonIo,YamlIo,Value}.cc`, `utils/Utf8.h`, `Serialize.cc` | `Json`, `Yaml`, `Value`, `Utf8`, `Number` | indentation manipulators beyond their output |
| `refract/{Element.h,InfoElements.cc,Utils.cc}`, `refract/dsd/*` | `Element`, `Extend` | type traits, printing visitors |
| `refract/{SerializeSo,ElementSize,ElementUtils,JsonValue,JsonSchema,Registry,ExpandVisitor,IsExpandableVisitor}.cc`, `Cardinal.h` | `SerializeSo`, `ElementSize`, `ElementUtils`, `JsonValue`, `JsonSchema`, `Registry`, `Expand` | `PrintVisitor.cc` |
| `RefractAPI.cc`, `RefractSourceMap.cc` | `RefractApi`, `Lines`, `Api` | the conversion of MSON is a parameter of this model |
| `RefractDataStructure.cc`, `Mson*ToApie.cc`, `RefractElementFactory.cc`, `ElementComparator.h`, `ExpandRefract` | `DataStructure`, `Expand` | source maps of converted elements (only their place, not their content) |
| `NamedTypesRegistry.cc` | `Registry` | collection of the names that a type mentions (a field of the model) |
| `markdown-parser/ByteBuffer.*`, `SourceMapUtils.cc` | `ByteBuffer`, `Lines` | Sundown (a submodule that is not in the repository) |
| `markdown-parser/MarkdownParser.cc`, `MarkdownNode.*` | `Markdown` | the C trampolines |
| `snowcrash/{SectionParser,SectionProcessor,BlueprintParser,ResourceGroupParser,ResourceParser,ActionParser,DataStructureGroupParser}.h` | `Section`, `Blueprint`, `Metadata`, `References`, `NamedTypes`, `Payload`, `Action`, `Resource`, `Group`, `DataGroup`, `Lookahead`, `Document` | source maps; the effect of attributes of resources on the tables of named types while they are parsed, and the tables of a document whose declarations are in error, are parameters |
| `snowcrash/{SignatureSectionProcessor,Signature,StringUtility,HeadersParser,ParameterParser,ParametersParser}.h`, `HTTP.cc`, `UriTemplateParser.cc` | `Signature`, `Text`, `Headers`, `Parameters`, `Http` (in `Metadata`), `UriTemplate` | — |
| `snowcrash/{ParametersParser,ParameterParser,MSONParameterParser,ValuesParser}.h` | `ParametersParser` | source maps, locations of warnings |
| `snowcrash/{PayloadParser,AssetParser,HeadersParser,CodeBlockUtility}.h`, recognition in all parsers | `Payload`, `Recognise`, `Regex` | source maps of the result, locations of warnings |
| `snowcrash/{MSONValueMemberParser,MSONTypeSectionParser,MSONOneOfParser}.{h,cc}`, `snowcrash/{MSONPropertyMemberParser,MSONMixinParser,MSONNamedTypeParser,AttributesParser}.h` | `MsonParser` | source maps, locations of warnings |
| `grammar/{Mediatype,Uritemplate,recover}.h`, `backend/MediaTypeS11n.cc` | `MediaType`, `UriTemplate` | – |

## Findings (deviations of the code from the properties, kernel-checked where a `_refuted` theorem is named)

* C05: plain YAML keys such as `true` or the empty key change their type (`C05_boolean_key_refuted`, `C05_empty_key_refuted`).
* C07: missing or stray continuation bytes and lead bytes F8–FF are not replaced as Unicode recommends.
* C11: wrong column on the last line, undefined behaviour for the empty range at offset 0.  C13: reads past the end for truncated UTF-8.
* C15: exceptions that are not derived from `std::exception` (`const char*`) escape; an annotation at `(0,0)` is undefined behaviour.
* C17: malformed UTF-8 before a tab makes the position computation read out of bounds.
* C21: a type that merely contains itself is reported as circular inheritance.  C22: undefined nested types get phantom entries.
* C23: the comparator given to `std::sort` is not transitive (undefined behaviour).  C24: built-in types can be removed.
* C25, C55: a cyclic registry makes `FindRootAncestor` loop for ever; reachable from a document with variable parents
  (`# A (*B*)`, `# B (*A*)`).
* C28: merging loses array items and `One Of` groups of the base type; a non-string key is a null dereference.
* C29: equality ignores element names; a null enumeration value is a null dereference.
* C30: cardinalities wrap around at 2^32.
* C32, C33: a variable property becomes the pattern `(?:)`; duplicate `properties`/`required` through mixins; empty `enum`.
* C34: `!` is rejected in header names; a NUL byte truncates a header line; a blank range takes the rest of the document as a header line.
* C36: a second media type parameter is lost; `application/json garbage` is taken as JSON.
* C37, C38: `{a.}` and `{a:}` accepted, `{a:1000}` rejected; control bytes are percent-encoded with one digit (`%1`).
* C39: `removeParameter` uses an erased iterator (formally undefined).  C41: `()`, `(a,)` read `attribute[-1]`.
* C43: a list item type section directly under a named type header makes the whole parse fail with "expected header block".
* C44: `[ ][]` stays pending silently; a model that refers to a later model is not resolved; attributes are not copied from models.
* C46: a header called `content-type` in lower case is not recognised.
* C47: an uninitialised status code is read for an unnamed response to CONNECT with a body.
* C48: a malformed metadata block warns "ignoring" but its metadata is kept; duplicates across paragraphs are not reported.
* C49: ``"`a` b `c`"`` is read as `a`.  C51: in `(optional, required)` the second word silently becomes the type.
* C61: `blockDidParse` hands the untruncated source map to the paragraph it makes for a list item when the text of the item is not found
  literally (e.g. a continuation line with indentation), so the map ends one byte after the source when Sundown added a newline; and it adds the
  position in the concatenated ranges to the start of the first range, so with several ranges the map is elsewhere. A report of
  several ranges whose last one is only the added newline is dropped entirely.
* C71: the inline description of an unnamed member without a value (an object in an array) is lost (`C71_line_refuted`). C70: nested
  elements are compared with their source maps, so structured entries of an enumeration that are written twice are not recognised as equal.
* C73: entries of an enumeration of the same unresolvable type, one an object and one an array, are compared by dereferencing a null pointer
  (`C73_undefined_refuted`); a cycle of variable parents makes the conversion loop (`C73_endless_refuted`).
* C63: in `array[A[B]]` the name `A` is lost; a comma in the destination of a link separates. C64: backticks do not protect a `*`.
  C65: a property called `*` is parsed again from its whole line, as a variable whose name is the text of the line.
* C55–C57: samples and defaults are never expanded, attributes of `One Of` are dropped by the expansion, the `enumerations` of an
  enumeration of a named type are not expanded, members of the same name are merged in the expansion.
* C74: a header `Sample: B [/b]` after a resource is swallowed as a description (`C74_resource_ends_refuted`). C75, C76: `GET /a[GET]` is read as
  a named action of a resource whose URI is the whole `/a[GET]` (`C75_uri_refuted`); header texts that end in a form feed are recognised but
  yield no name or URI (`C76_has_uri_refuted`, `C76_group_named_refuted`); `A [GET /[GET /]]` splits differently for resource and action.
* C78: a line that begins with a vertical tab is recognised as a request, but its name is lost without a word (`C78_silent_refuted`);
  the expression `[^\\)]` also excludes the backslash from media types (`C78_backslash_refuted`). A response always has a name
  (`C78_response_named`), so the uninitialised status of C47 is never read.
* C80: a second `Body` or `Schema` is reported as ignored, but it replaces the first (`C80_second_ignored_refuted`); an empty block
  of code (or one empty line) after a body makes `TwoNewLines` read out of range (`C80_total_refuted`); after a body, one block
  that is neither text nor a section does not end the body: text behind it is still added (`Continues` in `Spec/Payload.lean`).
* C82: `- a ()`: the parser of signatures reads past the end of the string (`C82_total_refuted`).
* `ResourceParser.h:171-180`: when a model's name is already taken (an error), text that follows the model is still stored, under that name, in the table — the body of the *other* resource's model is overwritten (example in `Props/C87`).
* `ResourceGroupParser.h:152-178, 221-241, 273-281`: `isResourcePresent` is inverted, and headers of actions before the first resource count as description: so an action without a resource becomes text of the group without any warning; the warning meant for it is given only after a header `METHOD/uri` without a blank, and with an empty URI (`C88_reported`, examples in `Props/C88`).
* `MSONNamedTypeParser.h:88-98`: the sections of a named type are read by the parser for headers even if they are list items; `+ Properties` directly under the header of a data structure therefore throws and the whole document is given up (`C89_item_section`).
* `DataStructureGroupParser.h:47-55, 127-160`: `isNamedTypeDuplicate` looks at the blueprint, which does not have the group that is being read: the group parser keeps two types of one group with the same name and does not report them (`C90_within`, examples in `Props/C90`); only the look-ahead of `BlueprintParser.h:343-353` does, and as an error, so that the warning `named type ... already exists` is never the only report of a duplicate.
* `BlueprintParser.h:180-203`: in `# Data Structures` a header of an action (`## GET`) ends the look-ahead for named types, but the parser of the group only ignores it: types after it are read but not declared, and a type or member that refers to one of them is reported as undefined (`C91_hidden`, `C91_group`, examples in `Props/C91_Examples`).
* `BlueprintParser.h:180-220`: a header `# Group …` does not end the resource before it for the look-ahead: `+ Attributes` under the header of the group is declared as a type with the name of that resource (example in `Props/C91_Examples`).
* `BlueprintParser.h:343-354`: a type whose name is a variable (`## *B*`) is declared with the asterisks but read without them (`C91_name` needs the name to be no variable; example in `Props/C91_Examples`).
* `BlueprintParser.h:280-308` with `SectionParser.h:38-40`: with the option that requires a name, a document without blocks is not reported (`C92_required` needs a block; example in `Props/C92_Examples`).
* `BlueprintParser.h:820-841`: headers of a payload that a model overrides are reported under the name of an undefined section if the model comes later in the document (`Overridden` in `Spec/Document.lean`).
* `DataStructureGroupParser.h:127-160`: a resource without attributes counts as a type with the empty name (`HasType` in `Spec/Document.lean`).
* `MSONParameterParser.h`: a `+ Properties` list item in a parameter of the new syntax silently ends the parameter: what comes below it in that parameter is lost without a report (`NewBlocks.ends` in `Spec/ParametersParser.lean`).
* `ParameterParser.h` (`getParameterType`): a list item with text under the word `Values` makes a parameter of the old syntax whose values are then not read; an unclosed nested bracket (`a (b(c`) counts as the new syntax.
* `MSONParameterParser.h`: a header that reads like `Sample` or `Items` within a parameter ends the parsing with an exception (example in `Props/C93_Examples`).
* `ParameterParser.h` (`getParameterType`): `a (b)(b)` is no parameter because the traits are compared with what follows them; in `a ([x]- y`, whose traits are not closed, the text behind the inner bracket counts as the description (examples in `Props/C94_Examples`).
* `SignatureSectionProcessor.h` (`parseSignatureValues`): of several values in backticks, all but the last lose them: `a: \`1\`, \`2\`` has the values `1` and `` `2` ``, and the text of the values is `1` (`Props/C95_Examples`). Attributes that are not closed, `a (b`, count as attributes.
* `Number.cc:41-48` (`std::stoi` in a `noexcept` conversion): with `-u`, an annotation at a character offset of 2^31 or more terminates the program (`C96_long`).
* `main.cc` (`ProcessRefract`): the input is parsed up to its first NUL (`.c_str()`), silently; the report's index of lines is built from all of it (`Props/C96_Examples`).
* By reading, `config.cc`, `main.cc`, `stream.h`: `-l` with `-o file` announces that the file will not be created, but it is created and truncated; `-o` naming the input file truncates it before it is read.
* Others, by reading: `ResourceParser.h:293-298` dereferences the end of an empty collection when source maps are not exported;
  `isResourcePresent` of `ResourceGroupParser.h` is inverted; `LogicError` inside `noexcept` functions ends in `std::terminate`;
  `TwoNewLines` reads out of bounds on `""`; `ReplaceString` loops on an empty pattern (unused).
