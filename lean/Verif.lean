import Verif.Py.Basic
import Verif.Py.Dict
import Verif.Py.Utf8
import Verif.Spec.Dataset
import Verif.Spec.DateTime
import Verif.Spec.Graph
import Verif.Spec.Iri
import Verif.Spec.JsonLd
import Verif.Spec.NTDenote
import Verif.Spec.NTGrammar
import Verif.Spec.NTString
import Verif.Spec.NTTurtle
import Verif.Spec.NTriples
import Verif.Spec.Normalize
import Verif.Spec.ResRead
import Verif.Spec.Resource
import Verif.Spec.Rfc3986
import Verif.Spec.Shared
import Verif.Spec.Sparql
import Verif.Spec.Threads
import Verif.Spec.TurtleDoc
import Verif.Spec.TurtleEnv
import Verif.Spec.TurtleGrammar
import Verif.Spec.TurtleNames
import Verif.Spec.TurtleReads
import Verif.Spec.TurtleSem
import Verif.Spec.TurtleTokens
import Verif.Spec.UriSchemes
import Verif.Model.Curie
import Verif.Model.Dataset
import Verif.Model.DatasetSink
import Verif.Model.DatasetThreads
import Verif.Model.DateTime
import Verif.Model.Environment
import Verif.Model.Escape
import Verif.Model.FailFile
import Verif.Model.FailStream
import Verif.Model.Graph
import Verif.Model.GraphReader
import Verif.Model.GraphReaders
import Verif.Model.GraphThreads
import Verif.Model.Grouper
import Verif.Model.Iri
import Verif.Model.JsonLd
import Verif.Model.Kinds
import Verif.Model.NTriples
import Verif.Model.ParserApi
import Verif.Model.ParserState
import Verif.Model.Profile
import Verif.Model.RdfXml
import Verif.Model.Records
import Verif.Model.Repr
import Verif.Model.ResCompare
import Verif.Model.Resource
import Verif.Model.Skos
import Verif.Model.Sparql
import Verif.Model.Term
import Verif.Model.Turtle
import Verif.Model.TurtleLex
import Verif.Model.TurtleOut
import Verif.Model.TurtleSer
import Verif.Model.UrlJoin
import Verif.Model.Util
import Verif.Lemmas.Dataset
import Verif.Lemmas.DatasetIter
import Verif.Lemmas.DatasetThreads
import Verif.Lemmas.DatasetThreadsRun
import Verif.Lemmas.Escape
import Verif.Lemmas.Graph
import Verif.Lemmas.GraphIter
import Verif.Lemmas.GraphReader
import Verif.Lemmas.GraphReaderCalm
import Verif.Lemmas.GraphReaderOneWay
import Verif.Lemmas.GraphReaderRun
import Verif.Lemmas.GraphReaders
import Verif.Lemmas.GraphRun
import Verif.Lemmas.GraphThreads
import Verif.Lemmas.GraphThreadsAlone
import Verif.Lemmas.GraphThreadsInv
import Verif.Lemmas.GraphThreadsRun
import Verif.Lemmas.GraphThreadsSome
import Verif.Lemmas.GraphThreadsSpec
import Verif.Lemmas.Hex
import Verif.Lemmas.Iri
import Verif.Lemmas.IriFix
import Verif.Lemmas.IriQuote
import Verif.Lemmas.LoopEdit
import Verif.Lemmas.NTDoc
import Verif.Lemmas.NTGrammar
import Verif.Lemmas.NTRead
import Verif.Lemmas.NTStream
import Verif.Lemmas.NTTurtle
import Verif.Lemmas.NTriples
import Verif.Lemmas.ParserState
import Verif.Lemmas.ResClass
import Verif.Lemmas.ResItem
import Verif.Lemmas.ResRead
import Verif.Lemmas.ResStore
import Verif.Lemmas.Resource
import Verif.Lemmas.TurtleDoc
import Verif.Lemmas.TurtleLex
import Verif.Lemmas.TurtleLexTok
import Verif.Lemmas.TurtleOut
import Verif.Lemmas.TurtleShift
import Verif.Lemmas.TurtleWrite
import Verif.Lemmas.TurtleWriteList
import Verif.Lemmas.UrlBase
import Verif.Lemmas.UrlChars
import Verif.Lemmas.UrlJoin
import Verif.Lemmas.UrlParse
import Verif.Lemmas.UrlRel
import Verif.Props.AtomicFile
import Verif.Props.BnodeRead
import Verif.Props.BuiltIn
import Verif.Props.Convert
import Verif.Props.ConvertBack
import Verif.Props.Curie
import Verif.Props.CurieExact
import Verif.Props.CurieExplicit
import Verif.Props.CutFile
import Verif.Props.CutTurtle
import Verif.Props.Dataset
import Verif.Props.DatasetSink
import Verif.Props.DatasetThreads
import Verif.Props.DatasetThreadsSound
import Verif.Props.DateTime
import Verif.Props.Decode
import Verif.Props.EitherFormat
import Verif.Props.Environment
import Verif.Props.Escape
import Verif.Props.FailFile
import Verif.Props.FailStream
import Verif.Props.Framing
import Verif.Props.Graph
import Verif.Props.GraphQuads
import Verif.Props.GraphReader
import Verif.Props.GraphReaderOneWay
import Verif.Props.GraphReaders
import Verif.Props.GraphThreads
import Verif.Props.GraphThreadsAdd
import Verif.Props.GraphThreadsSome
import Verif.Props.HashInGraph
import Verif.Props.HashOrder
import Verif.Props.Independent
import Verif.Props.Iri
import Verif.Props.IriFix
import Verif.Props.JsonLd
import Verif.Props.Kinds
import Verif.Props.ListEnds
import Verif.Props.ListExact
import Verif.Props.ListLoops
import Verif.Props.LoadOrder
import Verif.Props.LoadWrite
import Verif.Props.LoopEdit
import Verif.Props.LoopGroup
import Verif.Props.LoopValues
import Verif.Props.NQuadsBlank
import Verif.Props.NQuadsWrite
import Verif.Props.NTAppend
import Verif.Props.NTConcat
import Verif.Props.NTExact
import Verif.Props.NTGrammar
import Verif.Props.NTParse
import Verif.Props.NTTurtle
import Verif.Props.NTWrite
import Verif.Props.NTriples
import Verif.Props.Normalize
import Verif.Props.Overwrite
import Verif.Props.ParserApi
import Verif.Props.ParserState
import Verif.Props.Profile
import Verif.Props.RdfXml
import Verif.Props.Records
import Verif.Props.Relabel
import Verif.Props.Reload
import Verif.Props.Repeat
import Verif.Props.Repr
import Verif.Props.ResClass
import Verif.Props.ResCompare
import Verif.Props.ResFilter
import Verif.Props.ResFilterClass
import Verif.Props.ResFilterSets
import Verif.Props.ResItem
import Verif.Props.ResIter
import Verif.Props.ResList
import Verif.Props.ResMro
import Verif.Props.ResMroC3
import Verif.Props.ResMroExact
import Verif.Props.ResNames
import Verif.Props.ResPrefix
import Verif.Props.ResRead
import Verif.Props.ResSelect
import Verif.Props.ResWhole
import Verif.Props.SameFile
import Verif.Props.SaveLoad
import Verif.Props.SetSaveLoad
import Verif.Props.Settle
import Verif.Props.Shared
import Verif.Props.Skos
import Verif.Props.Sparql
import Verif.Props.Streams
import Verif.Props.TurtleAppend
import Verif.Props.TurtleDoc
import Verif.Props.TurtleEnv
import Verif.Props.TurtleEscape
import Verif.Props.TurtleGrammar
import Verif.Props.TurtleInject
import Verif.Props.TurtleLayout
import Verif.Props.TurtleLex
import Verif.Props.TurtleList
import Verif.Props.TurtleLocal
import Verif.Props.TurtleNames
import Verif.Props.TurtleOrder
import Verif.Props.TurtleParse
import Verif.Props.TurtleReload
import Verif.Props.TurtleRound
import Verif.Props.TurtleRoundLists
import Verif.Props.TurtleSame
import Verif.Props.TurtleSer
import Verif.Props.TurtleStable
import Verif.Props.TurtleString
import Verif.Props.TurtleTerm
import Verif.Props.TurtleTriples
import Verif.Props.TurtleTyped
import Verif.Props.UrlAbs
import Verif.Props.UrlJoin
import Verif.Props.Util
import Verif.Props.WriteFail
import Verif.Props.WriteGrows
