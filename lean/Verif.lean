import Verif.Model.Base
import Verif.Model.CharacterSet
import Verif.Model.Compare
import Verif.Model.Encoding
import Verif.Model.F32
import Verif.Model.FontSet
import Verif.Model.Index
import Verif.Model.Metered
import Verif.Model.Narrow
import Verif.Model.Number
import Verif.Model.Operations
import Verif.Model.Operator
import Verif.Model.Program
import Verif.Model.Source
import Verif.Model.Strings
import Verif.Model.Tables
import Verif.Model.Type2Operator
import Verif.Model.Words
import Verif.Model.Work
import Verif.Spec.Aftermath
import Verif.Spec.Agree
import Verif.Spec.Arithmetic
import Verif.Spec.Bytes
import Verif.Spec.CharacterSet
import Verif.Spec.Codes
import Verif.Spec.Collections
import Verif.Spec.Compare
import Verif.Spec.Defect
import Verif.Spec.Dict
import Verif.Spec.Distinct
import Verif.Spec.Drawings
import Verif.Spec.Edit
import Verif.Spec.Ends
import Verif.Spec.Exchange
import Verif.Spec.Faces
import Verif.Spec.Fault
import Verif.Spec.Final
import Verif.Spec.Flat
import Verif.Spec.Float
import Verif.Spec.FontSet
import Verif.Spec.Footprint
import Verif.Spec.Frame
import Verif.Spec.Glyph
import Verif.Spec.GlyphName
import Verif.Spec.Halt
import Verif.Spec.Index
import Verif.Spec.Join
import Verif.Spec.Limits
import Verif.Spec.Lost
import Verif.Spec.Merge
import Verif.Spec.Mixed
import Verif.Spec.Number
import Verif.Spec.Order
import Verif.Spec.Outline
import Verif.Spec.OutlineSet
import Verif.Spec.Program
import Verif.Spec.Prune
import Verif.Spec.Recode
import Verif.Spec.Remask
import Verif.Spec.RemaskSet
import Verif.Spec.Renumber
import Verif.Spec.Rewrite
import Verif.Spec.Seek
import Verif.Spec.Select
import Verif.Spec.Showable
import Verif.Spec.Size
import Verif.Spec.Source
import Verif.Spec.Strings
import Verif.Spec.Subset
import Verif.Spec.Tape
import Verif.Spec.Uncalled
import Verif.Spec.Words
import Verif.Spec.Work
import Verif.Spec.Writer
import Verif.Lemmas.Aftermath
import Verif.Lemmas.Agree
import Verif.Lemmas.AgreeType2
import Verif.Lemmas.Arithmetic
import Verif.Lemmas.CharacterSet
import Verif.Lemmas.Decimal
import Verif.Lemmas.Defect
import Verif.Lemmas.DefectFont
import Verif.Lemmas.DefectTables
import Verif.Lemmas.Dict
import Verif.Lemmas.Edit
import Verif.Lemmas.Encoding
import Verif.Lemmas.Ends
import Verif.Lemmas.F32
import Verif.Lemmas.FontSet
import Verif.Lemmas.FontSetPanic
import Verif.Lemmas.Index
import Verif.Lemmas.Merge
import Verif.Lemmas.Metered
import Verif.Lemmas.Narrow
import Verif.Lemmas.Number
import Verif.Lemmas.Outline
import Verif.Lemmas.Reader
import Verif.Lemmas.Recode
import Verif.Lemmas.Remask
import Verif.Lemmas.Renumber
import Verif.Lemmas.Rewrite
import Verif.Lemmas.Showable
import Verif.Lemmas.Source
import Verif.Lemmas.Strings
import Verif.Lemmas.Subset
import Verif.Lemmas.Texts
import Verif.Lemmas.Thin
import Verif.Lemmas.Type2Clear
import Verif.Lemmas.Type2Dispatch
import Verif.Lemmas.Type2Extend
import Verif.Lemmas.Type2Int
import Verif.Lemmas.Type2Next
import Verif.Lemmas.Type2Number
import Verif.Lemmas.Type2Ops
import Verif.Lemmas.Type2Refine
import Verif.Lemmas.Type2Sound
import Verif.Lemmas.Type2Stack
import Verif.Lemmas.Type2Step
import Verif.Lemmas.Type2Width
import Verif.Lemmas.Uncalled
import Verif.Lemmas.Utf8
import Verif.Lemmas.Words
import Verif.Lemmas.Work
import Verif.Lemmas.Wrap
import Verif.Lemmas.Writer
import Verif.Props.Aftermath
import Verif.Props.Agree
import Verif.Props.CharacterSet
import Verif.Props.Codes
import Verif.Props.Collections
import Verif.Props.Compare
import Verif.Props.CompareRun
import Verif.Props.Contained
import Verif.Props.Defect
import Verif.Props.Dict
import Verif.Props.Distinct
import Verif.Props.Drawings
import Verif.Props.Edit
import Verif.Props.Ends
import Verif.Props.Exchange
import Verif.Props.Faces
import Verif.Props.Fault
import Verif.Props.Final
import Verif.Props.Flat
import Verif.Props.FlatNumbers
import Verif.Props.FontSet
import Verif.Props.Footprint
import Verif.Props.Frame
import Verif.Props.Glyph
import Verif.Props.GlyphName
import Verif.Props.Halt
import Verif.Props.InLine
import Verif.Props.Index
import Verif.Props.Join
import Verif.Props.Keep
import Verif.Props.Limits
import Verif.Props.Lost
import Verif.Props.Merge
import Verif.Props.Metered
import Verif.Props.Mixed
import Verif.Props.Narrow
import Verif.Props.Numbers
import Verif.Props.Order
import Verif.Props.Outline
import Verif.Props.OutlineSet
import Verif.Props.Programs
import Verif.Props.Prune
import Verif.Props.Recode
import Verif.Props.Remask
import Verif.Props.RemaskSet
import Verif.Props.Renumber
import Verif.Props.Rewrite
import Verif.Props.Seek
import Verif.Props.Select
import Verif.Props.Showable
import Verif.Props.ShowableFonts
import Verif.Props.Size
import Verif.Props.Source
import Verif.Props.Strings
import Verif.Props.Subset
import Verif.Props.Thin
import Verif.Props.Type2Calls
import Verif.Props.Type2Depth
import Verif.Props.Type2Halt
import Verif.Props.Type2Numbers
import Verif.Props.Type2Run
import Verif.Props.Type2Stack
import Verif.Props.Uncalled
import Verif.Props.Words
import Verif.Props.Work
import Verif.Props.Writer
import Verif.Tests.Fixtures
