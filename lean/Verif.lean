import Verif.Model.Base
import Verif.Model.Lex
import Verif.Spec.Format
import Verif.Proofs.Numeral
import Verif.Proofs.Lex
import Verif.Proofs.Skip
import Verif.Proofs.DeepSkip
import Verif.Model.Types
import Verif.Model.Tags
import Verif.Model.Decode
import Verif.Spec.Decode
import Verif.Proofs.Tags
import Verif.Proofs.DecScalar
import Verif.Proofs.DecSound
import Verif.Proofs.DecComplete
import Verif.Model.DecCompile
import Verif.Model.Unmarshal
import Verif.Model.EncText
import Verif.Model.Encode
import Verif.Spec.Typing
import Verif.Proofs.DecSafe
import Verif.Proofs.Docs
import Verif.Spec.Compile
import Verif.Proofs.Unmarshal
import Verif.Proofs.DecFacts
import Verif.Props.Demo
import Verif.Proofs.ScalarFacts
import Verif.Spec.Safety
import Verif.Proofs.Safety
import Verif.Proofs.Nesting
import Verif.Proofs.Depth
import Verif.Props.DemoFacts
import Verif.Props.Scalars
import Verif.Props.Safety
import Verif.Props.Framing
import Verif.Spec.Frame
import Verif.Proofs.Frame
import Verif.Props.Structs
import Verif.Spec.Container
import Verif.Proofs.Containers
import Verif.Props.Containers
import Verif.Spec.Php
import Verif.Spec.Encode
import Verif.Proofs.Php
import Verif.Proofs.EncText
import Verif.Proofs.EncBase
import Verif.Proofs.EncSound
import Verif.Proofs.EncComplete
import Verif.Proofs.EncMono
import Verif.Props.Any
import Verif.Props.Compile
import Verif.Proofs.Marshal
import Verif.Spec.Float
import Verif.Spec.Values
import Verif.Spec.Shown
import Verif.Proofs.RoundScalar
import Verif.Proofs.EncDocs
import Verif.Proofs.EncStruct
import Verif.Props.DemoEnc
import Verif.Props.RoundTrip
import Verif.Props.Output
import Verif.Spec.Position
import Verif.Proofs.Position
import Verif.Proofs.EncFail
import Verif.Props.Parts
import Verif.Proofs.EncDet
import Verif.Proofs.Restack
import Verif.Proofs.Pointer
import Verif.Props.DemoDeep
import Verif.Props.Pointers
import Verif.Spec.Back
import Verif.Spec.Order
import Verif.Proofs.CompileFacts
import Verif.Proofs.RoundTree
import Verif.Proofs.Order
import Verif.Proofs.StringOpt
import Verif.Props.DemoBack
import Verif.Props.Composite
import Verif.Props.StringOption
import Verif.Proofs.EncCompile
import Verif.Proofs.EncCompileFacts
import Verif.Props.EncCompile
import Verif.Spec.Recursion
import Verif.Spec.Loops
import Verif.Spec.Again
import Verif.Proofs.EncVisit
import Verif.Proofs.EncRecursive
import Verif.Proofs.Acyclic
import Verif.Props.DemoRec
import Verif.Props.Recursion
import Verif.Proofs.EncEnds
import Verif.Proofs.Again
import Verif.Props.Cycles
import Verif.Props.Again
import Verif.Model.Cache
import Verif.Spec.Cache
import Verif.Proofs.Cache
import Verif.Props.Cache
import Verif.Model.Pool
import Verif.Spec.Pool
import Verif.Proofs.Pool
import Verif.Props.Pool
import Verif.Spec.Held
import Verif.Proofs.EncParts
import Verif.Proofs.Held
import Verif.Props.Held
import Verif.Model.Alias
import Verif.Spec.Alias
import Verif.Proofs.Alias
import Verif.Props.Alias
import Verif.Model.Alloc
import Verif.Spec.Alloc
import Verif.Proofs.Alloc
import Verif.Proofs.AllocMin
import Verif.Props.Alloc
import Verif.Model.DecPool
import Verif.Spec.DecPool
import Verif.Proofs.DecPool
import Verif.Props.DecPool
import Verif.Spec.Errors
import Verif.Proofs.Errors
import Verif.Props.Errors
import Verif.Proofs.Final
import Verif.Props.Final
import Verif.Spec.Overlay
import Verif.Proofs.Overlay
import Verif.Proofs.Twin
import Verif.Props.Overlay
import Verif.Props.Typed
import Verif.Model.Work
import Verif.Proofs.Work
import Verif.Props.DemoChain
import Verif.Props.Work
import Verif.Model.Mem
import Verif.Spec.Mem
import Verif.Proofs.Mem
import Verif.Proofs.MemSim
import Verif.Props.Mem
import Verif.Spec.Share
import Verif.Proofs.Share
import Verif.Props.Share
import Verif.Spec.MemTy
import Verif.Proofs.MemKeep
import Verif.Proofs.MemSame
import Verif.Props.MemTy
import Verif.Spec.Widen
import Verif.Proofs.Widen
import Verif.Props.DemoWiden
import Verif.Props.Widen
import Verif.Spec.Ieee
import Verif.Proofs.Near
import Verif.Proofs.Ieee
import Verif.Proofs.FloatText
import Verif.Props.DemoFloat
import Verif.Props.Floats
import Verif.Props.Unquote
import Verif.Props.FloatForm
import Verif.Props.Refuse
import Verif.Model.DecObj
import Verif.Spec.Names
import Verif.Proofs.DecAlike
import Verif.Proofs.DecObj
import Verif.Proofs.DecMake
import Verif.Proofs.DecCount
import Verif.Proofs.DecTwice
import Verif.Props.Objects
import Verif.Model.EncObj
import Verif.Proofs.EncMake
import Verif.Proofs.EncObj
import Verif.Proofs.EncCount
import Verif.Props.EncObjects
import Verif.Proofs.NoType
import Verif.Proofs.Names
import Verif.Proofs.Places
import Verif.Props.Names
import Verif.Model.Scribble
import Verif.Spec.Scribble
import Verif.Proofs.Ahead
import Verif.Proofs.Scribble
import Verif.Props.Scribble
import Verif.Model.Reader
import Verif.Model.ErrText
import Verif.Proofs.Reader
import Verif.Proofs.Looks
import Verif.Proofs.LooksDec
import Verif.Props.Reader
import Verif.Spec.Lists
import Verif.Spec.ErrText
import Verif.Proofs.ErrText
import Verif.Props.ErrText
import Verif.Proofs.Lists
import Verif.Props.Lists
import Verif.Spec.Trip
import Verif.Proofs.Trip
import Verif.Props.Trip
import Verif.Spec.Used
import Verif.Proofs.Used
import Verif.Props.DemoUsed
import Verif.Props.Used
import Verif.Props.DemoBoth
import Verif.Props.Both
import Verif.Model.Calls
import Verif.Spec.Calls
import Verif.Proofs.CallsSame
import Verif.Proofs.CallsSound
import Verif.Proofs.CallsOrder
import Verif.Proofs.CallsUnique
import Verif.Props.Calls
import Verif.Proofs.EncOpen
import Verif.Model.EncCalls
import Verif.Spec.EncCalls
import Verif.Proofs.EncCalls
import Verif.Proofs.EncCallsDet
import Verif.Proofs.EncCallsPar
import Verif.Props.EncCalls
import Verif.Spec.Rewrite
import Verif.Proofs.Rewrite
import Verif.Proofs.RewriteBack
import Verif.Proofs.RewriteMove
import Verif.Props.Rewrite
import Verif.Spec.Tell
import Verif.Proofs.Tell
import Verif.Proofs.TellEnc
import Verif.Props.Tell
import Verif.Spec.Range
import Verif.Proofs.Range
import Verif.Props.Range
import Verif.Spec.Lossless
import Verif.Proofs.Lossless
import Verif.Props.Lossless
import Verif.Model.TypeErr
import Verif.Spec.Fault
import Verif.Proofs.Fault
import Verif.Props.Fault
import Verif.Spec.Obstacle
import Verif.Spec.Barred
import Verif.Proofs.Obstacle
import Verif.Proofs.Barred
import Verif.Props.Obstacle
import Verif.Props.Barred
import Verif.Spec.Accept
import Verif.Proofs.Accept
import Verif.Props.Accept
import Verif.Spec.Rearrange
import Verif.Proofs.Rearrange
import Verif.Props.Rearrange
import Verif.Spec.Reorder
import Verif.Proofs.Reorder
import Verif.Props.Reorder
import Verif.Proofs.Return
import Verif.Props.Return
