import Verif.Model.ApplyText
import Verif.Props.Sequence
import Verif.Props.Changes
import Verif.Props.Clumps
import Verif.Props.Blocks
import Verif.Props.Fuzzy
import Verif.Props.Bytes
import Verif.Props.Programs
import Verif.Props.Faults
import Verif.Props.Undo
import Verif.Props.Lost
import Verif.Props.Edits
import Verif.Props.Empty
import Verif.Props.Rounds
import Verif.Props.Repeat
import Verif.Props.Restored
import Verif.Props.Split
import Verif.Props.Tidy
import Verif.Props.Already
import Verif.Props.Clean
import Verif.Props.Appended
import Verif.Props.Reading
import Verif.Props.Formats
import Verif.Props.Sides
import Verif.Props.Independent
import Verif.Props.Inodes
import Verif.Props.Hidden
import Verif.Props.Again
import Verif.Props.Express
import Verif.Props.Below
import Verif.Model.Data
import Verif.Props.Data
import Verif.Proofs.Ends
import Verif.Props.Ends
import Verif.Props.Foreign
import Verif.Props.Logging
import Verif.Props.Parts
import Verif.Props.Context
import Verif.Props.Builds
import Verif.Props.Count
import Verif.Props.Unified
import Verif.Props.UnifiedText
import Verif.Props.Joined
import Verif.Props.Relabel
import Verif.Props.Hunks
import Verif.Props.Together
import Verif.Props.Readers
import Verif.Props.Output
import Verif.Props.Mirror
import Verif.Props.CommandLine
import Verif.Props.Placing
import Verif.Props.Series
import Verif.Props.Cost
import Verif.Props.Pieces
import Verif.Props.Passage
import Verif.Props.LineEndings
import Verif.Props.Moves
import Verif.Props.Caution
import Verif.Props.Deleting
import Verif.Props.InPlace
import Verif.Props.Columns
import Verif.Props.Between
import Verif.Props.Since
import Verif.Props.Partly
import Verif.Props.Twice
import Verif.Props.Missing
import Verif.Props.Rerun
import Verif.Props.TakenBack
import Verif.Props.PartlyBack
import Verif.Props.Either
import Verif.Props.EitherBack
import Verif.Props.Merge
import Verif.Props.MissingBack
import Verif.Props.MergeBack
import Verif.Props.BackAgain
import Verif.Props.AnyOrder
import Verif.Props.History
import Verif.Props.Single
import Verif.Props.ByteInPlace
import Verif.Props.InPlaceResult
import Verif.Props.InPlaceOrder
import Verif.Props.InPlaceMade
import Verif.Props.InPlaceBack
import Verif.Props.InPlaceEdits
import Verif.Props.Distance
import Verif.Props.Size
import Verif.Tests
