import Verif.Props.Levenshtein
import Verif.Props.Difference
import Verif.Props.LinesChanged
import Verif.Props.Parser
import Verif.Props.ParserSound
import Verif.Props.ModelList
import Verif.Props.Info
import Verif.Props.Compare
import Verif.Props.Blend
import Verif.Props.EndToEnd
import Verif.Props.Context
import Verif.Props.InlineMarks
import Verif.Props.Normal
import Verif.Props.Perforce
import Verif.Props.Recreate
import Verif.Props.RecreateDefects
import Verif.Props.Process
import Verif.Props.Overlay
import Verif.Props.Edit
import Verif.Props.Reprint
import Verif.Props.Overflow
import Verif.Props.Within
import Verif.Props.Disk
import Verif.Props.Location
import Verif.Props.Utf16
import Verif.Props.Moved
import Verif.Props.AnyOrder
import Verif.Props.AnyEdit
import Verif.Props.SaveAll
import Verif.Props.AnyRange
import Verif.Props.OnDisk
import Verif.Props.Damage
import Verif.Props.DamageContext
import Verif.Props.Sitting
import Verif.Props.PatchFile
import Verif.Props.Tree
import Verif.Props.DirSitting
import Verif.Props.ReentrantCompare
import Verif.Props.ReentrantPatch
import Verif.Props.ProcessLife
import Verif.Props.Dos
import Verif.Props.WriteBack
import Verif.Props.Sorting
import Verif.Props.AnyText
import Verif.Props.NormalFlag
import Verif.Props.ShownNormal
import Verif.Props.ShownContext
import Verif.Props.Shown
import Verif.Props.Reentrant
import Verif.Props.NullSelection
import Verif.Props.EditRange
import Verif.Props.Own
import Verif.Props.Nested
import Verif.Props.Tracked
import Verif.Props.Names
import Verif.Props.Encoding
import Verif.Props.Lifetime
import Verif.Props.Announce
import Verif.Tests
import Verif.Axioms
