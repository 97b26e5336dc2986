import Verif.Basic
import Verif.Spec.Wtf8
import Verif.Model.Wtf8
import Verif.Lemmas.Bits
import Verif.Lemmas.Wtf8
import Verif.Lemmas.Wtf8Validate
import Verif.Lemmas.Wtf8Wide
import Verif.Lemmas.Wtf8Ops
import Verif.Lemmas.Wtf8Slice
import Verif.Lemmas.Wtf8Error
import Verif.Spec.Mutf8
import Verif.Model.Mutf8
import Verif.Lemmas.Mutf8
import Verif.Lemmas.Mutf8Inv
import Verif.Model.Rw
import Verif.Lemmas.Rw
import Verif.Model.Ty
import Verif.Spec.Ty
import Verif.Lemmas.Ty
import Verif.Lemmas.TySound
import Verif.Model.Signature
import Verif.Spec.Signature
import Verif.Lemmas.Signature
import Verif.Lemmas.SignatureSound
import Verif.Lemmas.SignatureTop
import Verif.Model.Cp
import Verif.Spec.Cp
import Verif.Lemmas.Cp
import Verif.Lemmas.CpInsert
import Verif.Model.Misc
import Verif.Spec.Misc
import Verif.Lemmas.Misc
import Verif.Model.Io
import Verif.Model.Frame
import Verif.Spec.Fmt
import Verif.Spec.Frame
import Verif.Lemmas.Io
import Verif.Lemmas.Frame
import Verif.Props.Wtf8
import Verif.Props.Mutf8
import Verif.Props.Rw
import Verif.Props.Ty
import Verif.Props.Signature
import Verif.Props.Cp
import Verif.Props.Misc
import Verif.Props.Frame
import Verif.Model.Opcodes
import Verif.Model.Insn
import Verif.Model.Instr
import Verif.Spec.Insn
import Verif.Lemmas.Insn
import Verif.Props.Insn
import Verif.Spec.Instr
import Verif.Lemmas.Instr
import Verif.Props.Instr
import Verif.Model.Asm
import Verif.Lemmas.Asm
import Verif.Props.Asm
import Verif.Model.Annotation
import Verif.Spec.Annotation
import Verif.Lemmas.Annotation
import Verif.Props.Annotation
import Verif.Model.Attr
import Verif.Spec.Attr
import Verif.Lemmas.Attr
import Verif.Lemmas.Local
import Verif.Props.Attr
import Verif.Model.Code
import Verif.Spec.Code
import Verif.Lemmas.Label
import Verif.Lemmas.Code
import Verif.Lemmas.CodeWrite
import Verif.Lemmas.Takes
import Verif.Lemmas.CodeRound
import Verif.Lemmas.Size
import Verif.Lemmas.Sound
import Verif.Lemmas.SoundCode
import Verif.Props.Code
import Verif.Model.Class
import Verif.Spec.Class
import Verif.Spec.Strings
import Verif.Spec.Skeleton
import Verif.Lemmas.Method
import Verif.Lemmas.Effect
import Verif.Lemmas.Class
import Verif.Lemmas.Skeleton
import Verif.Props.Class
import Verif.Spec.Input
import Verif.Lemmas.Loose
import Verif.Lemmas.Tame
import Verif.Lemmas.TameInsn
import Verif.Lemmas.TameAttr
import Verif.Lemmas.TameCode
import Verif.Lemmas.TameClass
import Verif.Props.Input
import Verif.Spec.Rewrite
import Verif.Lemmas.Ends
import Verif.Props.Write
import Verif.Spec.Consts
import Verif.Lemmas.Wr
import Verif.Lemmas.WrAttr
import Verif.Lemmas.WrCode
import Verif.Lemmas.WrBody
import Verif.Lemmas.WrClass
import Verif.Props.Consts
import Verif.Model.Wtf8Api
import Verif.Spec.Wtf8Api
import Verif.Lemmas.Wtf8Api
import Verif.Lemmas.Wtf8More
import Verif.Lemmas.Wtf8Debug
import Verif.Props.Wtf8Api
import Verif.Model.Derive
import Verif.Spec.Derive
import Verif.Lemmas.Derive
import Verif.Props.Derive
import Verif.Props.DeriveConfig
import Verif.Model.Decls
import Verif.Lemmas.Decls
import Verif.Props.Build
import Verif.Props.Decls
import Verif.Lemmas.SignatureChars
import Verif.Lemmas.Legible
import Verif.Model.Shared
import Verif.Model.Single
import Verif.Spec.Circular
import Verif.Lemmas.Sim
import Verif.Lemmas.Circular
import Verif.Lemmas.Shared
import Verif.Lemmas.SharedEnds
import Verif.Lemmas.Rewritten
import Verif.Props.Shared
import Verif.Spec.Reread
import Verif.Lemmas.Neat
import Verif.Lemmas.NeatCode
import Verif.Lemmas.NeatClass
import Verif.Lemmas.Reread
import Verif.Props.Reread
import Verif.Spec.Storable
import Verif.Lemmas.FitsCode
import Verif.Lemmas.Storable
import Verif.Props.Storable
import Verif.Spec.Exec
import Verif.Lemmas.Unambiguous
import Verif.Lemmas.Exec
import Verif.Lemmas.ExecClass
import Verif.Props.Exec
import Verif.Props.Single
import Verif.Props.Bodies
import Verif.Model.Heap
import Verif.Spec.Alike
import Verif.Lemmas.Heap
import Verif.Props.Heap
import Verif.Model.Sink
import Verif.Lemmas.Sink
import Verif.Props.Sink
import Verif.Spec.Stream
import Verif.Lemmas.Stream
import Verif.Lemmas.LocalCode
import Verif.Props.Framing
import Verif.Props.Stream
import Verif.Props.Repro
import Verif.Props.Depth
import Verif.Lemmas.Again
import Verif.Lemmas.AgainBody
import Verif.Lemmas.AgainRead
import Verif.Lemmas.AgainClass
import Verif.Props.Again
import Verif.Model.SigParts
import Verif.Spec.SignatureText
import Verif.Lemmas.SignatureText
import Verif.Props.SignatureText
import Verif.Props.SignaturePool
import Verif.Spec.Frames
import Verif.Lemmas.Unique
import Verif.Lemmas.Frames
import Verif.Props.Frames
import Verif.Spec.Growth
import Verif.Lemmas.Growth
import Verif.Props.Growth
import Verif.Model.Depth
import Verif.Lemmas.Depth
import Verif.Props.TextDepth
import Verif.Model.Memory
import Verif.Lemmas.Memory
import Verif.Props.Memory
import Verif.Spec.Rename
import Verif.Lemmas.Rename
import Verif.Lemmas.Fresh
import Verif.Props.Rename
import Verif.Spec.Tables
import Verif.Lemmas.Tables
import Verif.Props.Tables
import Verif.Model.Release
import Verif.Lemmas.Release
import Verif.Props.Release
import Verif.Spec.Equal
import Verif.Lemmas.Equal
import Verif.Props.Equal
import Verif.Spec.Format
import Verif.Model.Format
import Verif.Lemmas.Format
import Verif.Props.Format
import Verif.Spec.Edit
import Verif.Lemmas.Edit
import Verif.Props.Edit
import Verif.Spec.Collide
import Verif.Lemmas.Collide
import Verif.Props.Collide
import Verif.Model.Traits
import Verif.Spec.Traits
import Verif.Lemmas.Traits
import Verif.Props.Traits
import Verif.Spec.Nested
import Verif.Spec.NestedCopy
import Verif.Lemmas.Nested
import Verif.Lemmas.NestedCopy
import Verif.Lemmas.NestedOrder
import Verif.Props.Nested
import Verif.Spec.Overlong
import Verif.Props.Overlong
import Verif.Spec.Parts
import Verif.Props.Parts
import Verif.Props.Constants
import Verif.Props.Members
import Verif.Props.Source
import Verif.Props.Debug
import Verif.Props.ReleaseRead
import Verif.Props.ReleaseWrite
import Verif.Props.ReleaseSafe
import Verif.Props.Bulk
import Verif.Props.ReleaseBulk
import Verif.Props.Calls
import Verif.Props.Push
import Verif.Props.Series
import Verif.Props.Transfer
import Verif.Props.Heft
