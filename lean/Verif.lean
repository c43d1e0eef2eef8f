import Verif.Conform.Buffer
import Verif.Conform.Contents
import Verif.Conform.DerBer
import Verif.Conform.Derive
import Verif.Conform.Doc
import Verif.Conform.Id
import Verif.Conform.Length
import Verif.Conform.Readme
import Verif.Conform.Serde
import Verif.Lemmas.Access
import Verif.Lemmas.Alias
import Verif.Lemmas.AliasCode
import Verif.Lemmas.AliasLogic
import Verif.Lemmas.AliasOps
import Verif.Lemmas.AliasOpsB
import Verif.Lemmas.AliasOpsC
import Verif.Lemmas.AliasPiece
import Verif.Lemmas.AliasPieceB
import Verif.Lemmas.AliasPieceC
import Verif.Lemmas.AliasSafe
import Verif.Lemmas.AliasUse
import Verif.Lemmas.Alike
import Verif.Lemmas.Alter
import Verif.Lemmas.Append
import Verif.Lemmas.Attribute
import Verif.Lemmas.AttributeArgs
import Verif.Lemmas.AttributePlan
import Verif.Lemmas.Basic
import Verif.Lemmas.Ber
import Verif.Lemmas.Buffer
import Verif.Lemmas.BufferHistory
import Verif.Lemmas.BufferLittle
import Verif.Lemmas.BufferLittleRep
import Verif.Lemmas.BufferRep
import Verif.Lemmas.BufferUniversal
import Verif.Lemmas.Calls
import Verif.Lemmas.Contents
import Verif.Lemmas.Contract
import Verif.Lemmas.Cut
import Verif.Lemmas.De
import Verif.Lemmas.DeMore
import Verif.Lemmas.DeSettled
import Verif.Lemmas.DeTy
import Verif.Lemmas.DeTyBer
import Verif.Lemmas.Der
import Verif.Lemmas.Derive
import Verif.Lemmas.Edits
import Verif.Lemmas.Evolve
import Verif.Lemmas.EvolveEnc
import Verif.Lemmas.EvolveTy
import Verif.Lemmas.Expand
import Verif.Lemmas.Failures
import Verif.Lemmas.Faults
import Verif.Lemmas.FaultsTy
import Verif.Lemmas.Handover
import Verif.Lemmas.Handwritten
import Verif.Lemmas.Id
import Verif.Lemmas.IntOctets
import Verif.Lemmas.Length
import Verif.Lemmas.Loose
import Verif.Lemmas.Monad
import Verif.Lemmas.Origin
import Verif.Lemmas.Pairs
import Verif.Lemmas.Panic
import Verif.Lemmas.Part
import Verif.Lemmas.Place
import Verif.Lemmas.Raw
import Verif.Lemmas.RawClock
import Verif.Lemmas.RawDer
import Verif.Lemmas.RawExact
import Verif.Lemmas.RawGrowth
import Verif.Lemmas.RawGrowthParse
import Verif.Lemmas.RawGrowthSer
import Verif.Lemmas.RawHistory
import Verif.Lemmas.RawId
import Verif.Lemmas.RawLoose
import Verif.Lemmas.RawMemory
import Verif.Lemmas.RawParse
import Verif.Lemmas.RawSer
import Verif.Lemmas.RawSim
import Verif.Lemmas.RawSpend
import Verif.Lemmas.Rec
import Verif.Lemmas.RoundTrip
import Verif.Lemmas.Same
import Verif.Lemmas.Script
import Verif.Lemmas.Ser
import Verif.Lemmas.SerTy
import Verif.Lemmas.Sets
import Verif.Lemmas.Sim
import Verif.Lemmas.Stable
import Verif.Lemmas.Stops
import Verif.Lemmas.StopsBer
import Verif.Lemmas.Stream
import Verif.Lemmas.StreamBer
import Verif.Lemmas.Target
import Verif.Lemmas.TargetDe
import Verif.Lemmas.TargetEnc
import Verif.Lemmas.TargetMut
import Verif.Lemmas.TargetParse
import Verif.Lemmas.TargetRead
import Verif.Lemmas.TargetSer
import Verif.Lemmas.TargetTy
import Verif.Lemmas.TargetWrap
import Verif.Lemmas.Threads
import Verif.Lemmas.ThreadsCode
import Verif.Lemmas.ThreadsEasy
import Verif.Lemmas.ThreadsJoin
import Verif.Lemmas.Told
import Verif.Lemmas.ToldSteps
import Verif.Lemmas.ToldTy
import Verif.Lemmas.Trap
import Verif.Lemmas.Typing
import Verif.Lemmas.Unwind
import Verif.Lemmas.UnwindAgree
import Verif.Lemmas.UnwindCut
import Verif.Lemmas.UnwindMut
import Verif.Lemmas.UnwindRaw
import Verif.Lemmas.Utf8
import Verif.Lemmas.Work
import Verif.Lemmas.WorkBound
import Verif.Lemmas.Writer
import Verif.Model.Access
import Verif.Model.Alias
import Verif.Model.Attribute
import Verif.Model.Ber
import Verif.Model.Buffer
import Verif.Model.Calls
import Verif.Model.Compare
import Verif.Model.Contents
import Verif.Model.Convert
import Verif.Model.De
import Verif.Model.Der
import Verif.Model.Derive
import Verif.Model.Error
import Verif.Model.Expand
import Verif.Model.Hash
import Verif.Model.Id
import Verif.Model.InPlace
import Verif.Model.Length
import Verif.Model.Message
import Verif.Model.Names
import Verif.Model.OctetString
import Verif.Model.Prim
import Verif.Model.Raw
import Verif.Model.RawSer
import Verif.Model.Reader
import Verif.Model.Readme
import Verif.Model.Scope
import Verif.Model.Ser
import Verif.Model.Target
import Verif.Model.TargetDe
import Verif.Model.TargetMut
import Verif.Model.TargetSer
import Verif.Model.Told
import Verif.Model.Types
import Verif.Model.Typing
import Verif.Model.Unwind
import Verif.Model.Work
import Verif.Model.Writer
import Verif.Props.Alias
import Verif.Props.Alike
import Verif.Props.Alter
import Verif.Props.Answers
import Verif.Props.AnyReader
import Verif.Props.Append
import Verif.Props.Attribute
import Verif.Props.Ber
import Verif.Props.Buffer
import Verif.Props.Calls
import Verif.Props.Chunking
import Verif.Props.Collections
import Verif.Props.Compare
import Verif.Props.Conform
import Verif.Props.Consumed
import Verif.Props.Contents
import Verif.Props.Contract
import Verif.Props.Convert
import Verif.Props.Cut
import Verif.Props.De
import Verif.Props.Decode
import Verif.Props.Der
import Verif.Props.Derive
import Verif.Props.Document
import Verif.Props.Edits
import Verif.Props.Error
import Verif.Props.Evolve
import Verif.Props.Expand
import Verif.Props.Failing
import Verif.Props.Faults
import Verif.Props.Forms
import Verif.Props.Fresh
import Verif.Props.Growth
import Verif.Props.GrowthAny
import Verif.Props.Handover
import Verif.Props.Handwritten
import Verif.Props.Hash
import Verif.Props.HashMap
import Verif.Props.HashOrder
import Verif.Props.Id
import Verif.Props.InPlace
import Verif.Props.Interrupt
import Verif.Props.Length
import Verif.Props.Loose
import Verif.Props.Memory
import Verif.Props.Messages
import Verif.Props.Mismatch
import Verif.Props.Named
import Verif.Props.Names
import Verif.Props.NormalForm
import Verif.Props.OctetString
import Verif.Props.Origin
import Verif.Props.Panic
import Verif.Props.Part
import Verif.Props.Passes
import Verif.Props.Place
import Verif.Props.Raw
import Verif.Props.RawExact
import Verif.Props.RawReader
import Verif.Props.ReadBer
import Verif.Props.Readme
import Verif.Props.Rec
import Verif.Props.Reserve
import Verif.Props.Rule
import Verif.Props.Scope
import Verif.Props.Ser
import Verif.Props.Session
import Verif.Props.Stream
import Verif.Props.Target
import Verif.Props.TargetMut
import Verif.Props.TargetSerde
import Verif.Props.Threads
import Verif.Props.Told
import Verif.Props.Trap
import Verif.Props.Tree
import Verif.Props.Typing
import Verif.Props.Unwind
import Verif.Props.Work
import Verif.Props.Wrap
import Verif.Spec.Alias
import Verif.Spec.AliasUse
import Verif.Spec.Alike
import Verif.Spec.Alter
import Verif.Spec.Append
import Verif.Spec.Attribute
import Verif.Spec.Basic
import Verif.Spec.Buffer
import Verif.Spec.Calls
import Verif.Spec.Conform
import Verif.Spec.Contract
import Verif.Spec.Cut
import Verif.Spec.Decode
import Verif.Spec.Document
import Verif.Spec.Edits
import Verif.Spec.Error
import Verif.Spec.Evolve
import Verif.Spec.Expand
import Verif.Spec.Faults
import Verif.Spec.Growth
import Verif.Spec.Handover
import Verif.Spec.Handwritten
import Verif.Spec.Header
import Verif.Spec.Loose
import Verif.Spec.Mismatch
import Verif.Spec.Named
import Verif.Spec.Names
import Verif.Spec.Origin
import Verif.Spec.Pairs
import Verif.Spec.Part
import Verif.Spec.Place
import Verif.Spec.Raw
import Verif.Spec.Reader
import Verif.Spec.Readme
import Verif.Spec.Rec
import Verif.Spec.Rule
import Verif.Spec.Same
import Verif.Spec.Scope
import Verif.Spec.Serde
import Verif.Spec.Session
import Verif.Spec.Stream
import Verif.Spec.Tags
import Verif.Spec.Target
import Verif.Spec.Threads
import Verif.Spec.Told
import Verif.Spec.Trap
import Verif.Spec.Tree
import Verif.Spec.Typing
import Verif.Spec.Unwind
import Verif.Spec.Utf8
import Verif.Spec.Work
import Verif.Spec.Writer
