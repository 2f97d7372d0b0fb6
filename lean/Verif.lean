import Verif.Props.C01
import Verif.Props.C02
import Verif.Props.C22
import Verif.Props.C03
import Verif.Props.C04
import Verif.Props.C05
import Verif.Props.C06
import Verif.Props.C07
import Verif.Props.C08
import Verif.Props.C55
import Verif.Props.C09
import Verif.Props.C10
import Verif.Props.C11
import Verif.Props.C13
import Verif.Props.C15
import Verif.Props.C16
import Verif.Props.C17
import Verif.Props.C18
import Verif.Props.C19
import Verif.Props.C14
import Verif.Props.C20
import Verif.Props.C56
import Verif.Props.C57
import Verif.Props.C58
import Verif.Props.C21
import Verif.Props.C50
import Verif.Props.C28
import Verif.Props.C25
import Verif.Props.C27
import Verif.Props.C27Lemon
import Verif.Props.C27Strings
import Verif.Props.C44
import Verif.Props.C30
import Verif.Props.C31
import Verif.Props.C32
import Verif.Props.C33
import Verif.Props.C35
import Verif.Props.C36
import Verif.Spec.LemonRun
import Verif.Proofs.LemonLoop
import Verif.Spec.LemonAccept
import Verif.Proofs.LemonSim
import Verif.Proofs.LemonSound
import Verif.Props.C39
import Verif.Proofs.LemonComplete
import Verif.Props.C40
import Verif.Props.C41
import Verif.Spec.LemonTypes
import Verif.Proofs.LemonTypes
import Verif.Props.C43
import Verif.Lemon.Preproc
import Verif.Spec.LemonPreproc
import Verif.Proofs.LemonPreproc
import Verif.Proofs.LemonPreLines
import Verif.Proofs.LemonPreBody
import Verif.Props.C46
import Verif.Lemon.Header
import Verif.Spec.LemonHeader
import Verif.Props.C49
import Verif.Lemon.Reprint
import Verif.Spec.LemonReprint
import Verif.Proofs.LemonReprint
import Verif.Props.C48
import Verif.Proofs.Prefix
import Verif.Props.C65
import Verif.Proofs.LemonPrefix
import Verif.Props.C66
import Verif.Spec.LemonErr
import Verif.Proofs.LemonErr
import Verif.Props.C67
import Verif.Props.C68
import Verif.Proofs.LemonEnd
import Verif.Props.C69
import Verif.Spec.LemonRepair
import Verif.Proofs.LemonRepair
import Verif.Props.C70
import Verif.Lemon.Scan
import Verif.Spec.LemonScan
import Verif.Proofs.LemonScan
import Verif.Props.C71
import Verif.Lemon.Read
import Verif.Spec.LemonFile
import Verif.Spec.LemonRead
import Verif.Proofs.LemonRead
import Verif.Proofs.LemonReadLoops
import Verif.Proofs.LemonReadSpec
import Verif.Proofs.LemonReadItems
import Verif.Proofs.LemonReadDecls
import Verif.Proofs.LemonReadRule
import Verif.Proofs.LemonReadConv
import Verif.Proofs.LemonReadFile
import Verif.Proofs.LemonReadFirst
import Verif.Props.C72
import Verif.Lemon.Number
import Verif.Spec.LemonLang
import Verif.Proofs.LemonNumber
import Verif.Proofs.LemonGram
import Verif.Proofs.LemonLang
import Verif.Proofs.LemonUsable
import Verif.Props.C73
import Verif.Lemon.Union
import Verif.Spec.LemonUnion
import Verif.Proofs.LemonUnion
import Verif.Proofs.LemonUnionFile
import Verif.Proofs.LemonFileDec
import Verif.Props.C74
import Verif.Lemon.Code
import Verif.Spec.LemonCode
import Verif.Proofs.LemonCode
import Verif.Proofs.LemonCodeRule
import Verif.Props.C75
import Verif.Props.C75File
import Verif.Lemon.Destructor
import Verif.Spec.LemonDestructor
import Verif.Proofs.LemonDestructor
import Verif.Props.C76
import Verif.Props.C77
import Verif.Byacc.Scan
import Verif.Byacc.Action
import Verif.Byacc.Front
import Verif.Spec.ByaccText
import Verif.Proofs.ByaccText
import Verif.Proofs.ByaccWords
import Verif.Proofs.ByaccLines
import Verif.Props.C78
import Verif.Spec.ByaccCode
import Verif.Spec.ByaccFile
import Verif.Spec.ByaccMeaning
import Verif.Proofs.ByaccCode
import Verif.Proofs.ByaccAction
import Verif.Proofs.ByaccActions
import Verif.Proofs.ByaccRun
import Verif.Proofs.ByaccRunRules
import Verif.Proofs.ByaccTable
import Verif.Props.C79
import Verif.Spec.ByaccGrammar
import Verif.Spec.ByaccMeans
import Verif.Proofs.ByaccMeaning
import Verif.Proofs.ByaccMeaningRules
import Verif.Proofs.ByaccMeaningFile
import Verif.Proofs.ByaccMeaningAll
import Verif.Proofs.ByaccMeaningGram
import Verif.Proofs.ByaccMeaningOut
import Verif.Proofs.ByaccMeaningEnd
import Verif.Proofs.ByaccMeaningRead
import Verif.Proofs.ByaccUnique
import Verif.Proofs.ByaccMeans
import Verif.Props.C80
import Verif.Spec.ByaccLang
import Verif.Spec.ParseCtx
import Verif.Byacc.Whole
import Verif.Proofs.SoundCtx
import Verif.Proofs.ByaccLang
import Verif.Proofs.ByaccActs
import Verif.Props.C81
import Verif.Props.C82
import Verif.Spec.Choice
import Verif.Byacc.Backtrack
import Verif.Proofs.BtMarks
import Verif.Proofs.BtConf
import Verif.Proofs.BtTables
import Verif.Proofs.BtGroup
import Verif.Proofs.BtPoss
import Verif.Proofs.BtUsed
import Verif.Props.C83
import Verif.Byacc.BtSkel
import Verif.Proofs.BtControl
import Verif.Proofs.BtStep
import Verif.Proofs.BtInv
import Verif.Proofs.BtRun
import Verif.Proofs.BtGen
import Verif.Props.C84
import Verif.Props.C85
import Verif.Proofs.BtSame
import Verif.Props.C86
import Verif.Byacc.Text
import Verif.Byacc.TextFile
import Verif.Spec.OutText
import Verif.Spec.OutStr
import Verif.Spec.OutDefs
import Verif.Proofs.TextLines
import Verif.Proofs.TextParts
import Verif.Proofs.TextAll
import Verif.Proofs.TextActs
import Verif.Proofs.TextGrow
import Verif.Proofs.TextTables
import Verif.Proofs.TextDefs
import Verif.Proofs.TextStr
import Verif.Proofs.TextFile
import Verif.Proofs.TextTok
import Verif.Props.C87
import Verif.Props.C88
import Verif.Props.C89
import Verif.Props.C90
import Verif.Spec.OutBlock
import Verif.Props.C91
import Verif.Spec.OutUser
import Verif.Spec.OutDecl
import Verif.Proofs.TextUser
import Verif.Props.C92
import Verif.Props.C93
import Verif.Props.C94
import Verif.Lemon.Text
import Verif.Spec.LemonText
import Verif.Spec.LemonLayout
import Verif.Spec.LemonTextRead
import Verif.Proofs.LemonText
import Verif.Proofs.LemonTextParts
import Verif.Proofs.LemonTextLayout
import Verif.Proofs.LemonTextAll
import Verif.Proofs.LemonTextLine
import Verif.Proofs.LemonTextOob
import Verif.Proofs.LemonTextRead
import Verif.Proofs.LemonTextBetween
import Verif.Props.C95
import Verif.Props.C96
import Verif.Props.C97
import Verif.Props.C98
import Verif.Lemon.Main
import Verif.Spec.LemonWhole
import Verif.Proofs.LemonSafe
import Verif.Props.C99
import Verif.Spec.LemonAssert
import Verif.Proofs.LemonReduces
import Verif.Props.C100
import Verif.Spec.ByaccReads
import Verif.Spec.ByaccWhole
import Verif.Proofs.TableSizes
import Verif.Props.C101
import Verif.Props.C102
import Verif.Byacc.CaseText
import Verif.Spec.OutCases
import Verif.Proofs.TextCases
import Verif.Props.C103
import Verif.Byacc.Naked
import Verif.Spec.ByaccNaked
import Verif.Proofs.ByaccSuffix
import Verif.Proofs.NakedText
import Verif.Proofs.NakedAlts
import Verif.Proofs.NakedParse
import Verif.Proofs.NakedFile
import Verif.Proofs.NakedLines
import Verif.Proofs.NakedMeaning
import Verif.Proofs.NakedUses
import Verif.Proofs.NakedLang
import Verif.Props.C104
import Verif.Byacc.Opts
import Verif.Spec.ByaccOpts
import Verif.Proofs.ByaccOpts
import Verif.Proofs.ByaccFiles
import Verif.Proofs.ByaccStems
import Verif.Props.C105
import Verif.Props.C106
import Verif.Byacc.Graph
import Verif.Spec.ByaccGraph
import Verif.Proofs.GraphText
import Verif.Props.C107
import Verif.Proofs.ReportText
import Verif.Props.C108
import Verif.Byacc.RuleList
import Verif.Spec.ByaccList
import Verif.Proofs.ListText
import Verif.Props.C109
import Verif.Byacc.ToLemon
import Verif.Spec.ByaccLemon
import Verif.Proofs.ToLemonWords
import Verif.Proofs.ToLemonText
import Verif.Proofs.ToLemonFile
import Verif.Proofs.ToLemonMeaning
import Verif.Lemon.StartCheck
import Verif.Props.C110
import Verif.Lemon.OutFile
import Verif.Spec.LemonOut
import Verif.Proofs.LemonOutFile
import Verif.Proofs.LemonOutConf
import Verif.Props.C111
import Verif.Lemon.HFile
import Verif.Spec.LemonHFile
import Verif.Proofs.LemonHFile
import Verif.Props.C112
import Verif.Props.C113
import Verif.Lemon.OptArgs
import Verif.Spec.LemonOpts
import Verif.Proofs.LemonOpts
import Verif.Props.C114
import Verif.Lemon.NoResort
import Verif.Props.C115
import Verif.Lemon.Tplt
import Verif.Spec.LemonTplt
import Verif.Props.C116
import Verif.Lemon.Sql
import Verif.Spec.LemonSql
import Verif.Proofs.LemonSql
import Verif.Props.C117
import Verif.Lemon.Exit
import Verif.Spec.LemonExit
import Verif.Proofs.LemonExit
import Verif.Props.C118
import Verif.Lemon.Again
import Verif.Spec.LemonAgain
import Verif.Proofs.LemonAgain
import Verif.Props.C119
import Verif.Proofs.LemonAgainValid
import Verif.Proofs.LemonAgainPrec
import Verif.Props.C119Reads
