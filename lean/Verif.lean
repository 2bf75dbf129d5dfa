import Verif.Lemmas.WrappedBuffer
import Verif.Props.ReaderTree
import Verif.Props.ReaderGrammar
import Verif.Props.ReaderErrors
import Verif.Props.History
import Verif.Props.Layout
import Verif.Props.RoundTrip
import Verif.Props.Levenshtein
import Verif.Props.Diff
import Verif.Props.Search
import Verif.Props.SearchInput
import Verif.Props.Navigate
import Verif.Props.Tui
import Verif.Props.TuiScreen
import Verif.Props.TuiMoves
import Verif.Props.TuiMore
import Verif.Props.NbLines
import Verif.Props.StrLen
import Verif.Props.OutputFlag
import Verif.Props.FifoMap
import Verif.Props.DiffCmd
import Verif.Props.Params
import Verif.Props.Main
import Verif.Lemmas.SplitItems
import Verif.Lemmas.SplitSteps
import Verif.Lemmas.SplitPass
import Verif.Lemmas.SplitEnd
import Verif.Lemmas.SplitDone
import Verif.Lemmas.SplitMono
import Verif.Lemmas.SplitOwn
import Verif.Lemmas.SplitHist
import Verif.Lemmas.SplitInv
import Verif.Lemmas.SplitOwnHist
import Verif.Lemmas.SplitHas
import Verif.Lemmas.SplitWindow
import Verif.Lemmas.SplitLog
import Verif.Lemmas.SplitLogged
import Verif.Lemmas.SplitPic
import Verif.Lemmas.SplitOutline
import Verif.Lemmas.SplitMarks
import Verif.Lemmas.SplitSel
import Verif.Lemmas.SplitNext
import Verif.Props.Split
import Verif.Props.SplitSearch
import Verif.Props.SplitScreen
import Verif.Lemmas.SplitAlign
import Verif.Lemmas.SplitLevel
import Verif.Props.SplitLevel
import Verif.Lemmas.WindowAll
import Verif.Model.Loop
import Verif.Spec.Keys
import Verif.Props.Loop
import Verif.Props.LoopSize
import Verif.Model.Term
import Verif.Model.Paint
import Verif.Spec.Picture
import Verif.Lemmas.Paint
import Verif.Lemmas.PaintWindow
import Verif.Lemmas.Picture
import Verif.Lemmas.PictureRows
import Verif.Props.Picture
import Verif.Model.Double
import Verif.Spec.Decimal
import Verif.Lemmas.Double
import Verif.Props.Double
import Verif.Props.Language
import Verif.Model.SplitPaint
import Verif.Spec.SplitPicture
import Verif.Lemmas.SplitCalls
import Verif.Lemmas.SplitTerm
import Verif.Lemmas.SplitSeen
import Verif.Props.SplitWatch
import Verif.Props.SplitPicture
import Verif.Model.Heap
import Verif.Spec.Heap
import Verif.Spec.Mistakes
import Verif.Lemmas.Quiet
import Verif.Lemmas.QuietMore
import Verif.Lemmas.HeapBasic
import Verif.Lemmas.HeapSteps
import Verif.Lemmas.HeapReader
import Verif.Lemmas.HeapNav
import Verif.Props.Heap
import Verif.Lemmas.ReaderFirst
import Verif.Props.ReaderFirst
import Verif.Model.Prompt
import Verif.Lemmas.Prompt
import Verif.Lemmas.PromptOne
import Verif.Lemmas.PromptTwo
import Verif.Props.Prompt
import Verif.Lemmas.Mistakes
import Verif.Lemmas.MistakesTok
import Verif.Lemmas.MistakesPlace
import Verif.Props.Mistakes
import Verif.Spec.SplitFold
import Verif.Props.SplitFold
import Verif.Spec.Moves
import Verif.Props.Moves
import Verif.Spec.KeyTable
import Verif.Props.KeyTable
import Verif.Spec.SplitMoves
import Verif.Lemmas.SplitUpDown
import Verif.Props.SplitMoves
import Verif.Model.Program
import Verif.Model.Browse
import Verif.Spec.Process
import Verif.Lemmas.Program
import Verif.Lemmas.ProgramInv
import Verif.Props.Program
import Verif.Props.Browse
import Verif.Props.TempFiles
import Verif.Spec.Meets
import Verif.Props.DiffMeets
import Verif.Props.Format
import Verif.Model.Object
import Verif.Spec.Multimap
import Verif.Props.Object
import Verif.Props.SplitCrash
import Verif.Props.Signs
import Verif.Spec.Surrogates
import Verif.Props.Surrogates
import Verif.Model.Texts
import Verif.Spec.Words
import Verif.Props.Help
import Verif.Props.Silence
import Verif.Props.Breaks
import Verif.Props.MistakesBreaks
import Verif.Props.Notices
import Verif.Props.TuiCrash
import Verif.Props.Accepted
import Verif.Props.Refused
import Verif.Props.TuiExactly
import Verif.Props.SplitExactly
import Verif.Props.SplitAny
import Verif.Props.SplitLayers
import Verif.Props.Lost
import Verif.Props.Overflow
import Verif.Props.Batch
import Verif.Props.SplitAstray
import Verif.Props.LoopExactly
import Verif.Props.PromptExactly
import Verif.Props.PromptResized
import Verif.Props.ReaderBare
import Verif.Props.LanguageExactly
import Verif.Props.DiffNoSigns
import Verif.Props.DiffExchange
import Verif.Props.SignsExactly
import Verif.Props.Comparison
import Verif.Props.ExchangeUnique
import Verif.Props.InCommon
import Verif.Props.Inserted
import Verif.Props.InPlace
import Verif.Props.Edited
import Verif.Props.Records
import Verif.Props.Local
import Verif.Props.Moved
import Verif.Props.Quiet
