import Verif.Props.Core
import Verif.Props.Map
import Verif.Props.Structure
import Verif.Props.Limits
import Verif.Props.Boxes
import Verif.Props.Sorted
import Verif.Props.StdHeap
import Verif.Props.Nearest
import Verif.Props.Join
import Verif.Props.Shapes
import Verif.Props.Order
import Verif.Props.Memory
import Verif.Props.Sharing
import Verif.Props.Drop
import Verif.Props.Unwind
import Verif.Props.Callbacks
import Verif.Props.LeftCalls
import Verif.Props.SortedCalls
import Verif.Props.Stacks
import Verif.Props.Floats
import Verif.Props.Measures
import Verif.Props.Heuristics
import Verif.Props.Checks
import Verif.Props.Account
import Verif.Props.Lazy
import Verif.Props.RawLeft
import Verif.Props.Destructors
import Verif.Props.Vectors
import Verif.Props.Debug
import Verif.Props.Space
import Verif.Props.Configs
import Verif.Props.Heights
import Verif.Props.Dimension
import Verif.Props.Threads
import Verif.Props.Work
import Verif.Props.Reading
import Verif.Props.ZeroSized
import Verif.Props.Updates
import Verif.Cases.Trees
import Verif.Cases.Geometry
import Verif.Cases.Shapes
import Verif.Cases.Calls
import Verif.Cases.Memory
import Verif.Props.RefThreads
import Verif.Props.Fused
import Verif.Props.Filters
import Verif.Props.Honest
import Verif.Props.Recovery
import Verif.Props.Integers
import Verif.Props.IntShapes
import Verif.Props.Translate
import Verif.Props.Allocator
