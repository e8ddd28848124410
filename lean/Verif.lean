import Verif.Mem
import Verif.Wasm
import Verif.Wp
import Verif.Tac
import Verif.Spec
import Verif.Rt.Ext
import Verif.Rt.Ints
import Verif.Rt.Alloc
import Verif.Proof.Ints
import Verif.Proof.Alloc
import Verif.Props.Base
import Verif.Props.Ints
import Verif.Rt.Heap
import Verif.Rt.HeapInts
import Verif.Rt.HeapShift
import Verif.Rt.HeapDiv
import Verif.Rt.Equality
import Verif.Proof.Heap
import Verif.Proof.HeapInts
import Verif.Proof.HeapMul
import Verif.Proof.HeapInts2
import Verif.Proof.HeapInts3
import Verif.Proof.Words
import Verif.Proof.Equality
import Verif.Proof.HeapDiv
import Verif.Proof.HeapShift
import Verif.Props.HeapInts
import Verif.Abi
import Verif.Rt.Ascii
import Verif.Rt.Data
import Verif.Proof.BigEndian
import Verif.Proof.Ascii
import Verif.Proof.Data
import Verif.Proof.Errors
import Verif.Props.Errors
import Verif.Rt.Pack
import Verif.Rt.Rep
import Verif.Proof.Pack
import Verif.Proof.Pack2
import Verif.Proof.Pack3
import Verif.Proof.Pack4
import Verif.Props.Pack
import Verif.Rt.Unpack
import Verif.Rt.Dec
import Verif.Proof.Unpack
import Verif.Proof.Unpack2
import Verif.Proof.Unpack3
import Verif.Proof.Unpack4
import Verif.Proof.Unpack5
import Verif.Proof.Unpack6
import Verif.Props.Unpack
import Verif.Wlp
import Verif.Rt.Router
import Verif.Proof.Router
import Verif.Proof.Router2
import Verif.Proof.Router3
import Verif.Proof.Router4
import Verif.Proof.RouterSafe
import Verif.Props.Router
import Verif.SlotSpec
import Verif.Rt.Slots
import Verif.Rt.Signature
import Verif.Proof.Slots
import Verif.Proof.Signature
import Verif.Props.Slots
import Verif.Props.Signature
import Verif.Rt.Values
import Verif.Rt.Vector
import Verif.Proof.Values
import Verif.Proof.Copy
import Verif.Proof.Copy2
import Verif.Proof.Copy3
import Verif.Proof.VecEq
import Verif.Proof.VecOps
import Verif.Proof.VecOps2
import Verif.Proof.VecOps3
import Verif.Proof.Forward
import Verif.Props.Vector
import Verif.Rt.Storage
import Verif.Layout
import Verif.Proof.Layout
import Verif.Proof.Codec
import Verif.Proof.Codec2
import Verif.Proof.Codec3
import Verif.Proof.Codec4
import Verif.Proof.Codec5
import Verif.Proof.StorageRt
import Verif.Proof.StorageRt2
import Verif.Proof.StorageEnc
import Verif.Proof.StorageEnc2
import Verif.Proof.StorageEnc3
import Verif.Proof.StorageEnc4
import Verif.Proof.StorageEnc5
import Verif.Proof.StorageEnc6
import Verif.Proof.StorageEnc7
import Verif.Proof.StorageEnc8
import Verif.Proof.Codec6
import Verif.Props.Storage
import Verif.Proof.StorageDec
import Verif.Proof.StorageDec2
import Verif.Proof.StorageDec3
import Verif.Proof.StorageDec4
import Verif.Proof.StorageDec5
import Verif.Proof.StorageDec6
import Verif.Proof.StorageDec7
import Verif.Proof.StorageDec8
import Verif.Proof.StorageDec9
import Verif.Props.ReadBack
import Verif.Own
import Verif.Proof.StorageDec10
import Verif.Proof.Delete
import Verif.Proof.Delete2
import Verif.Proof.Delete3
import Verif.Props.Delete
import Verif.Tree
import Verif.Rt.Transfer
import Verif.Proof.Tree
import Verif.Proof.Transfer
import Verif.Proof.Transfer2
import Verif.Proof.Transfer3
import Verif.Props.Transfer
import Verif.Move
import Verif.Rt.Compile
import Verif.Rt.MoveRep
import Verif.Proof.RegCode
import Verif.Proof.MoveMem
import Verif.Proof.MoveCopy
import Verif.Proof.MoveOps
import Verif.Proof.MoveStruct
import Verif.Proof.MoveCode
import Verif.Proof.MoveCalls
import Verif.Proof.MoveQuery
import Verif.Proof.MoveSim
import Verif.Proof.MoveFlow
import Verif.Proof.MoveProg
import Verif.Props.Compile
import Verif.Rt.Natives
import Verif.Proof.Natives
import Verif.Props.Natives
import Verif.Rt.External
import Verif.Proof.External
import Verif.Props.External
import Verif.Rt.Dynamic
import Verif.Proof.Dynamic
import Verif.Proof.Dynamic2
import Verif.Proof.Dynamic3
import Verif.Proof.Dynamic4
import Verif.Props.Dynamic
import Verif.Rt.Event
import Verif.AbiEvent
import Verif.Proof.Event
import Verif.Proof.Event2
import Verif.Proof.Event3
import Verif.Props.Event
import Verif.Rt.Str
import Verif.Proof.Utf8
import Verif.Proof.Str
import Verif.Proof.Str2
import Verif.Props.Str
import Verif.AbiJson
import Verif.Rt.Export
import Verif.Proof.Export
import Verif.Proof.Export2
import Verif.Props.Export
import Verif.Rt.CustomError
import Verif.Props.CustomError
import Verif.Rt.Wire
import Verif.Proof.Wire
import Verif.Props.Wire
import Verif.Rt.TypeHash
import Verif.Proof.TypeHash
import Verif.Props.TypeHash
import Verif.Rt.TypeName
import Verif.Proof.TypeName
import Verif.Props.TypeName
import Verif.Rt.Unroll
import Verif.Proof.Unroll
import Verif.Props.Recursion
import Verif.Rt.Link
import Verif.Proof.Link
import Verif.Props.Link
import Verif.Rt.Consts
import Verif.Proof.Consts
import Verif.Proof.VecPack
import Verif.Props.Consts
import Verif.Valid
import Verif.Rt.Verifier
import Verif.Rt.Signer
import Verif.Proof.Valid
import Verif.Proof.Valid2
import Verif.Proof.Valid3
import Verif.Proof.Valid4
import Verif.Proof.Valid5
import Verif.Proof.Valid6
import Verif.Proof.Valid7
import Verif.Props.Valid
import Verif.Rt.Transaction
import Verif.Proof.Transaction
import Verif.Props.Transaction
import Verif.Rt.Enums
import Verif.Proof.Enums
import Verif.Props.Enums
import Verif.Rt.Generic
import Verif.Proof.Generic
import Verif.Props.Generic
import Verif.Rt.Objects
import Verif.Proof.Objects
import Verif.Proof.Objects2
import Verif.Props.Objects
import Verif.Props.Objects2
import Verif.Rt.Validate
import Verif.Props.Validate
import Verif.Props.Lifetimes
import Verif.Proof.Valid8
import Verif.Proof.Valid9
import Verif.Proof.Valid10
import Verif.Proof.Valid11
import Verif.Proof.Valid12
import Verif.Props.ValidEntry
import Verif.Props.ValidRuntime
import Verif.Solidity
import Verif.Rt.Interface
import Verif.Proof.Interface
import Verif.Props.Interface
import Verif.Rt.Emitted
import Verif.Proof.Emitted
import Verif.Props.Emitted
import Verif.Rt.TestRun
import Verif.Proof.TestRun
import Verif.Props.TestRun
import Verif.Rt.Body
import Verif.Props.Body
import Verif.Rt.Build
import Verif.Props.Build
import Verif.Rt.AbiFiles
import Verif.Props.AbiFiles
import Verif.Rt.Attributes
import Verif.Props.Attributes
import Verif.Rt.Process
import Verif.Props.Process
import Verif.Rt.Cli
import Verif.Props.Cli
import Verif.Rt.WasmIface
import Verif.Props.WasmIface
