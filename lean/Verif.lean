import Verif.Base.Bytes
import Verif.Base.GoMap
import Verif.Spec.CdfHeader
import Verif.Spec.CdfLayout
import Verif.Spec.CdfWrite
import Verif.Spec.FillValue
import Verif.Spec.Filters
import Verif.Spec.H5Array
import Verif.Spec.H5Chunk
import Verif.Spec.H5Dims
import Verif.Spec.H5File
import Verif.Spec.H5Format
import Verif.Spec.H5Handle
import Verif.Spec.H5Header
import Verif.Spec.H5Heap
import Verif.Spec.H5Index
import Verif.Spec.H5Object
import Verif.Spec.H5Path
import Verif.Spec.H5Pipeline
import Verif.Spec.H5Read
import Verif.Spec.H5Session
import Verif.Spec.H5Slices
import Verif.Spec.H5Stream
import Verif.Spec.H5Type
import Verif.Spec.H5Value
import Verif.Spec.Lookup3
import Verif.Spec.Shape
import Verif.Spec.Stored
import Verif.Spec.TypeNames
import Verif.Model.AttrTypes
import Verif.Model.CdfClose
import Verif.Model.CdfHandle
import Verif.Model.CdfIO
import Verif.Model.CdfReader
import Verif.Model.CdfWriter
import Verif.Model.Dispatch
import Verif.Model.Fill
import Verif.Model.GoVal
import Verif.Model.H5Api
import Verif.Model.H5Base
import Verif.Model.H5Checksum
import Verif.Model.H5Data
import Verif.Model.H5Filters
import Verif.Model.H5Group
import Verif.Model.H5Handle
import Verif.Model.H5Heap
import Verif.Model.H5Msg
import Verif.Model.H5Object
import Verif.Model.H5Super
import Verif.Model.H5Type
import Verif.Model.H5Value
import Verif.Model.H5Writer
import Verif.Model.Names
import Verif.Model.OrderedMap
import Verif.Lemmas.CdfAttr
import Verif.Lemmas.CdfBox
import Verif.Lemmas.CdfCalls
import Verif.Lemmas.CdfData
import Verif.Lemmas.CdfEnc
import Verif.Lemmas.CdfFile
import Verif.Lemmas.CdfParse
import Verif.Lemmas.CdfPlain
import Verif.Lemmas.CdfRecSize
import Verif.Lemmas.CdfRecord
import Verif.Lemmas.CdfSlice
import Verif.Lemmas.CdfTrip
import Verif.Lemmas.CdfType
import Verif.Lemmas.CdfWhole
import Verif.Lemmas.H5ApiFile
import Verif.Lemmas.H5ApiRead
import Verif.Lemmas.H5ApiTree
import Verif.Lemmas.H5Array
import Verif.Lemmas.H5Base
import Verif.Lemmas.H5Checksum
import Verif.Lemmas.H5Chunk
import Verif.Lemmas.H5Close
import Verif.Lemmas.H5Dims
import Verif.Lemmas.H5Elem
import Verif.Lemmas.H5Fill
import Verif.Lemmas.H5Filters
import Verif.Lemmas.H5Flat
import Verif.Lemmas.H5Format
import Verif.Lemmas.H5Handle
import Verif.Lemmas.H5Header
import Verif.Lemmas.H5Heap
import Verif.Lemmas.H5HeapOps
import Verif.Lemmas.H5Index
import Verif.Lemmas.H5Layout
import Verif.Lemmas.H5Meta
import Verif.Lemmas.H5Msg
import Verif.Lemmas.H5Msgs
import Verif.Lemmas.H5Object
import Verif.Lemmas.H5Passes
import Verif.Lemmas.H5Path
import Verif.Lemmas.H5Pipeline
import Verif.Lemmas.H5Prune
import Verif.Lemmas.H5Ready
import Verif.Lemmas.H5Session
import Verif.Lemmas.H5Slices
import Verif.Lemmas.H5Stored
import Verif.Lemmas.H5Stream
import Verif.Lemmas.H5Super
import Verif.Lemmas.H5Type
import Verif.Lemmas.H5Value
import Verif.Lemmas.H5VarEnc
import Verif.Lemmas.H5Write
import Verif.Lemmas.H5WriteGroup
import Verif.Lemmas.OrderedMap
import Verif.Lemmas.TypeNames
import Verif.Props.CdfDims
import Verif.Props.CdfIO
import Verif.Props.CdfOpen
import Verif.Props.CdfRound
import Verif.Props.CdfRoundEx
import Verif.Props.CdfSlice
import Verif.Props.Codec
import Verif.Props.Dispatch
import Verif.Props.Fill
import Verif.Props.H5DType
import Verif.Props.H5Data
import Verif.Props.H5DataEx
import Verif.Props.H5Dims
import Verif.Props.H5File
import Verif.Props.H5Filters
import Verif.Props.H5Format
import Verif.Props.H5Handle
import Verif.Props.H5Heap
import Verif.Props.H5Msg
import Verif.Props.H5Object
import Verif.Props.H5Others
import Verif.Props.H5OthersEx
import Verif.Props.H5Path
import Verif.Props.H5Session
import Verif.Props.H5Slices
import Verif.Props.H5Super
import Verif.Props.H5Type
import Verif.Props.H5Value
import Verif.Props.Names
import Verif.Props.OrderedMap
import Verif.Props.TypeNames
import Verif.Model.H5Typed
import Verif.Model.H5TypedApi
import Verif.Spec.H5Typed
import Verif.Spec.H5Vars
import Verif.Lemmas.H5Typed
import Verif.Lemmas.H5TypedSlice
import Verif.Lemmas.H5Vars
import Verif.Props.H5Typed
import Verif.Props.H5TypedEx
import Verif.Props.H5Vars
import Verif.Props.H5VarsEx
import Verif.Props.Getter
import Verif.Props.GetterAny
import Verif.Props.GetterRecords
import Verif.Model.H5Names
import Verif.Spec.H5Names
import Verif.Lemmas.H5Names
import Verif.Lemmas.H5NamesRead
import Verif.Props.H5Names
import Verif.Props.H5NamesEx
import Verif.Spec.H5Lift
import Verif.Spec.H5Written
import Verif.Lemmas.H5Shown
import Verif.Lemmas.H5Forms
import Verif.Lemmas.H5Holds
import Verif.Lemmas.H5HeapForm
import Verif.Lemmas.H5WrittenAs
import Verif.Props.H5Written
import Verif.Model.H5TypedWriter
import Verif.Spec.H5UserTypes
import Verif.Lemmas.H5UserTypes
import Verif.Lemmas.H5UserArrays
import Verif.Props.H5UserTypes
import Verif.Spec.H5Form
import Verif.Lemmas.H5UserFile
import Verif.Spec.H5ReadTyped
import Verif.Lemmas.H5ReadTyped
import Verif.Props.H5ReadTyped
import Verif.Props.H5OrderTyped
import Verif.Spec.H5VarTypes
import Verif.Props.H5VarTypes
import Verif.Spec.H5Sane
import Verif.Lemmas.H5Sane
import Verif.Lemmas.H5SaneLists
import Verif.Lemmas.H5SaneSum
import Verif.Lemmas.H5SaneCont
import Verif.Lemmas.H5SaneHeap
import Verif.Lemmas.H5SaneSuper
import Verif.Lemmas.H5Append
import Verif.Props.H5Sane
import Verif.Spec.CdfFormat
import Verif.Lemmas.CdfClassic
import Verif.Lemmas.CdfClassicVar
import Verif.Props.CdfFormat
import Verif.Lemmas.CdfClassicOut
import Verif.Props.CdfFormatOut
import Verif.Spec.Formats
import Verif.Props.Formats
import Verif.Props.H5FileNeg
import Verif.Props.H5TypedNeg
import Verif.Props.H5VarTypesNeg
import Verif.Spec.H5Declared
import Verif.Lemmas.H5Declared
import Verif.Props.H5Declared
import Verif.Spec.H5Rows
import Verif.Lemmas.H5Rows
import Verif.Props.H5Rows
import Verif.Model.H5TypedBox
import Verif.Spec.H5Box
import Verif.Props.H5Box
import Verif.Props.H5Values
import Verif.Spec.CdfDeclared
import Verif.Props.CdfDeclared
