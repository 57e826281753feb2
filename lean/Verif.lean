import Verif.Props.C10
import Verif.Props.C01_C03
import Verif.Props.C04_C05
import Verif.Props.C06_C07
import Verif.Props.C08_C09
import Verif.Props.C11
import Verif.Props.C12_C13
import Verif.Props.C19
import Verif.Props.C26_C27_C29
import Verif.Props.C28
import Verif.Props.C20_C22
import Verif.Props.C23_C25
import Verif.Props.C14_C18
import Verif.Props.C30
import Verif.Props.C31
import Verif.Props.C33
import Verif.Props.C32
import Verif.Props.C45_C46
import Verif.Props.C39_C51_C52
import Verif.Props.C40_C42_C49
import Verif.Props.C34_C35
import Verif.Props.C36
import Verif.Props.C37_C38
import Verif.Props.C47_C48
import Verif.Props.C50
import Verif.Props.C55_C57
import Verif.Props.C58
import Verif.Props.C59_C61
import Verif.Props.C43_C53
import Verif.Props.C44_C54
import Verif.Props.C62_C65
import Verif.Props.C66_C68
import Verif.Props.C69
import Verif.Props.C70
import Verif.Props.C71_C72
import Verif.Props.C73
import Verif.Model.Regex
import Verif.Model.Recognise
import Verif.Spec.Regex
import Verif.Spec.Recognise
import Verif.Proof.Regex
import Verif.Proof.Recognise
import Verif.Proof.RecogniseMatch
import Verif.Proof.RecogniseCapture
import Verif.Proof.RecogniseUnique
import Verif.Props.C74
import Verif.Props.C75_C76
import Verif.Props.C77
import Verif.Proof.RecognisePayload
import Verif.Props.C78_C79
import Verif.Model.Payload
import Verif.Proof.PayloadLoop
import Verif.Proof.Payload
import Verif.Props.C77_Keyword
import Verif.Spec.Payload
import Verif.Proof.PayloadSpec
import Verif.Proof.PayloadBody
import Verif.Props.C80
import Verif.Props.C81
import Verif.Model.MsonParser
import Verif.Proof.MsonLoop
import Verif.Proof.MsonReaders
import Verif.Proof.MsonMeaning
import Verif.Spec.MsonParser
import Verif.Spec.MsonSections
import Verif.Proof.MsonRoles
import Verif.Proof.MsonBlocks
import Verif.Proof.MsonAttributes
import Verif.Props.C82
import Verif.Proof.MsonSteps
import Verif.Proof.MsonWalk
import Verif.Proof.MsonContent
import Verif.Proof.MsonLines
import Verif.Props.C83
import Verif.Proof.MsonSections
import Verif.Props.C84
import Verif.Spec.PayloadParts
import Verif.Proof.PayloadParts
import Verif.Proof.PayloadSections
import Verif.Proof.PayloadRead
import Verif.Props.C85
import Verif.Model.Action
import Verif.Spec.Action
import Verif.Proof.HeaderLoop
import Verif.Proof.ActionKinds
import Verif.Proof.ActionParts
import Verif.Proof.Action
import Verif.Props.C86
import Verif.Model.Resource
import Verif.Spec.Resource
import Verif.Proof.RunLoop
import Verif.Proof.ResourceKinds
import Verif.Proof.ResourceParts
import Verif.Proof.Resource
import Verif.Props.C87
import Verif.Model.Group
import Verif.Spec.Group
import Verif.Proof.GroupKinds
import Verif.Proof.Group
import Verif.Props.C88
import Verif.Spec.NamedType
import Verif.Proof.SectionMany
import Verif.Proof.NamedType
import Verif.Proof.NamedTypeSpec
import Verif.Props.C89
import Verif.Model.DataGroup
import Verif.Spec.DataGroup
import Verif.Proof.DataGroup
import Verif.Props.C90
import Verif.Model.Lookahead
import Verif.Spec.Lookahead
import Verif.Proof.Lookahead
import Verif.Props.C91
import Verif.Props.C91_Examples
import Verif.Model.Document
import Verif.Spec.Document
import Verif.Proof.Document
import Verif.Proof.DocumentSpec
import Verif.Props.C92
import Verif.Props.C92_Examples
import Verif.Model.ParametersParser
import Verif.Spec.ParametersParser
import Verif.Proof.ParametersValues
import Verif.Proof.ParametersOne
import Verif.Proof.ParametersSection
import Verif.Props.C93
import Verif.Props.C93_Examples
import Verif.Spec.ParameterLine
import Verif.Proof.ParameterLine
import Verif.Proof.ParameterLineName
import Verif.Props.C94
import Verif.Props.C94_Examples
import Verif.Spec.LineKinds
import Verif.Spec.SignatureLine
import Verif.Proof.SignatureScan
import Verif.Proof.SignatureLine
import Verif.Proof.SignatureParts
import Verif.Props.C95
import Verif.Props.C95_Examples
import Verif.Model.CommandLine
import Verif.Spec.CommandLine
import Verif.Proof.CommandLine
import Verif.Proof.CommandLineRun
import Verif.Props.C96
import Verif.Props.C96_Examples
