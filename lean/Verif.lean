import Verif.Lemmas.Base64
import Verif.Lemmas.Brackets
import Verif.Lemmas.Buffered
import Verif.Lemmas.De
import Verif.Lemmas.DeWhole
import Verif.Lemmas.EmitLayout
import Verif.Lemmas.EmitScalar
import Verif.Lemmas.EmitText
import Verif.Lemmas.EmitterIo
import Verif.Lemmas.Escaper
import Verif.Lemmas.EventGrammar
import Verif.Lemmas.JsonCut
import Verif.Lemmas.LabelSem
import Verif.Lemmas.LiteralText
import Verif.Lemmas.LoadDocs
import Verif.Lemmas.LoadEval
import Verif.Lemmas.LoadOut
import Verif.Lemmas.LoadPlaces
import Verif.Lemmas.LoadRun
import Verif.Lemmas.Loader
import Verif.Lemmas.Parser
import Verif.Lemmas.ParserAnchors
import Verif.Lemmas.ParserComplete
import Verif.Lemmas.ParserCompleteDoc
import Verif.Lemmas.ParserCompleteInd
import Verif.Lemmas.ParserCount
import Verif.Lemmas.ParserDoc
import Verif.Lemmas.ParserFrame
import Verif.Lemmas.ParserLoad
import Verif.Lemmas.ParserLocal
import Verif.Lemmas.ParserOrder
import Verif.Lemmas.ParserPlaces
import Verif.Lemmas.ParserPush
import Verif.Lemmas.ParserRun
import Verif.Lemmas.ParserSafe
import Verif.Lemmas.ParserSound
import Verif.Lemmas.ParserStep
import Verif.Lemmas.ParserText
import Verif.Lemmas.ParserUsual
import Verif.Lemmas.Pieces
import Verif.Lemmas.Quotes
import Verif.Lemmas.ReadBack
import Verif.Lemmas.RoundTrip
import Verif.Lemmas.Scalar
import Verif.Lemmas.ScanBegin
import Verif.Lemmas.ScanBlock
import Verif.Lemmas.ScanBlockParts
import Verif.Lemmas.ScanBlockText
import Verif.Lemmas.ScanBlocks
import Verif.Lemmas.ScanDirective
import Verif.Lemmas.ScanDocs
import Verif.Lemmas.ScanDoom
import Verif.Lemmas.ScanEager
import Verif.Lemmas.ScanEntries
import Verif.Lemmas.ScanEntriesL
import Verif.Lemmas.ScanEval
import Verif.Lemmas.ScanExplicit
import Verif.Lemmas.ScanFaults
import Verif.Lemmas.ScanFetch
import Verif.Lemmas.ScanFetches
import Verif.Lemmas.ScanFlow
import Verif.Lemmas.ScanFlowNode
import Verif.Lemmas.ScanFlowTok
import Verif.Lemmas.ScanFolded
import Verif.Lemmas.ScanFuel
import Verif.Lemmas.ScanHang
import Verif.Lemmas.ScanHead
import Verif.Lemmas.ScanJson
import Verif.Lemmas.ScanJsonFlow
import Verif.Lemmas.ScanJsonValue
import Verif.Lemmas.ScanLabel
import Verif.Lemmas.ScanLabelBlock
import Verif.Lemmas.ScanLayout
import Verif.Lemmas.ScanLeaf
import Verif.Lemmas.ScanLines
import Verif.Lemmas.ScanLiteral
import Verif.Lemmas.ScanLost
import Verif.Lemmas.ScanMove
import Verif.Lemmas.ScanNode
import Verif.Lemmas.ScanNumbers
import Verif.Lemmas.ScanOpen
import Verif.Lemmas.ScanOps
import Verif.Lemmas.ScanPlain
import Verif.Lemmas.ScanQLines
import Verif.Lemmas.ScanQueue
import Verif.Lemmas.ScanQuoted
import Verif.Lemmas.ScanRefuse
import Verif.Lemmas.ScanRun
import Verif.Lemmas.ScanSame
import Verif.Lemmas.ScanSameBlock
import Verif.Lemmas.ScanSameFetch
import Verif.Lemmas.ScanSameRun
import Verif.Lemmas.ScanScalars
import Verif.Lemmas.ScanScroll
import Verif.Lemmas.ScanStray
import Verif.Lemmas.ScanTag
import Verif.Lemmas.ScanTagInv
import Verif.Lemmas.ScanTokens
import Verif.Lemmas.ScanTree
import Verif.Lemmas.ScanUnclosed
import Verif.Lemmas.ScanWords
import Verif.Lemmas.ScanWp
import Verif.Lemmas.ScanWrong
import Verif.Lemmas.Ser
import Verif.Lemmas.SerIo
import Verif.Lemmas.Simd
import Verif.Lemmas.TextLoad
import Verif.Lemmas.TypedBlock
import Verif.Lemmas.TypedDoc
import Verif.Lemmas.TypedJson
import Verif.Lemmas.Utf8
import Verif.Lemmas.Utf8Text
import Verif.Lemmas.Wrapping
import Verif.Model.Access
import Verif.Model.Base64
import Verif.Model.Buffered
import Verif.Model.Bytes
import Verif.Model.CharUtils
import Verif.Model.Convert
import Verif.Model.De
import Verif.Model.Emitter
import Verif.Model.EmitterIo
import Verif.Model.Equality
import Verif.Model.Escaper
import Verif.Model.FromStr
import Verif.Model.Index
import Verif.Model.LazyExpander
import Verif.Model.LoadText
import Verif.Model.Loader
import Verif.Model.Parser
import Verif.Model.ParserIter
import Verif.Model.ParserLoad
import Verif.Model.Scalar
import Verif.Model.Scanner
import Verif.Model.Ser
import Verif.Model.SerIo
import Verif.Model.SerValue
import Verif.Model.Simd
import Verif.Model.Source
import Verif.Model.SourceMore
import Verif.Model.Spanned
import Verif.Model.Tokens
import Verif.Model.Types
import Verif.Model.Utf8
import Verif.Props.Access
import Verif.Props.Base64
import Verif.Props.Block
import Verif.Props.Brackets
import Verif.Props.Buffered
import Verif.Props.CharUtils
import Verif.Props.Convert
import Verif.Props.De
import Verif.Props.DeEnum
import Verif.Props.Directives
import Verif.Props.Docs
import Verif.Props.EmitterIo
import Verif.Props.Equality
import Verif.Props.Escaper
import Verif.Props.EventPlaces
import Verif.Props.Explicit
import Verif.Props.Faults
import Verif.Props.Flow
import Verif.Props.FromOpen
import Verif.Props.Head
import Verif.Props.Index
import Verif.Props.Json
import Verif.Props.Labels
import Verif.Props.Layout
import Verif.Props.LazyExpander
import Verif.Props.Limits
import Verif.Props.LineEnds
import Verif.Props.Lines
import Verif.Props.Literal
import Verif.Props.Loader
import Verif.Props.MultiDoc
import Verif.Props.Parser
import Verif.Props.ParserComplete
import Verif.Props.ParserIter
import Verif.Props.ParserSound
import Verif.Props.Pieces
import Verif.Props.Places
import Verif.Props.PushPull
import Verif.Props.PushPullExact
import Verif.Props.ReadBack
import Verif.Props.RoundTrip
import Verif.Props.Scalar
import Verif.Props.ScanNumbers
import Verif.Props.ScanQuoted
import Verif.Props.Scanner
import Verif.Props.Scroll
import Verif.Props.Ser
import Verif.Props.SerIo
import Verif.Props.Spanned
import Verif.Props.Tags
import Verif.Props.TextLoad
import Verif.Props.Truncated
import Verif.Props.TypedBlock
import Verif.Props.TypedJson
import Verif.Props.Whole
import Verif.Props.Wrapping
import Verif.Props.Written
import Verif.Props.WrongDirective
import Verif.Spec.Anchors
import Verif.Spec.Base64
import Verif.Spec.Block
import Verif.Spec.CoreSchema
import Verif.Spec.Escape
import Verif.Spec.Events
import Verif.Spec.Faults
import Verif.Spec.Head
import Verif.Spec.IterRuns
import Verif.Spec.Json
import Verif.Spec.Layout
import Verif.Spec.LineEnds
import Verif.Spec.Numbers
import Verif.Spec.ParserRuns
import Verif.Spec.Places
import Verif.Spec.Positions
import Verif.Spec.PullRuns
import Verif.Spec.ReadBack
import Verif.Spec.RoundTrip
import Verif.Spec.ScanInputs
import Verif.Spec.ScannerRuns
import Verif.Spec.Serialise
import Verif.Spec.SourceOps
import Verif.Spec.Tags
import Verif.Spec.TextTree
import Verif.Spec.TokenGrammar
import Verif.Spec.TokenStream
import Verif.Spec.Trees
import Verif.Spec.Typed
import Verif.Spec.TypedBlock
import Verif.Spec.TypedJson
import Verif.Spec.Usual
import Verif.Spec.Utf8
import Verif.Spec.Wrapping
import Verif.Spec.Writers
