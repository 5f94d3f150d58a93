import Verif.Props.Buffer
import Verif.Props.Codec
import Verif.Props.Graph
import Verif.Props.Tree
import Verif.Props.Ref
import Verif.Props.PtrStore
import Verif.Props.Factory
import Verif.Props.EnumKeys
import Verif.Props.MultiArray
import Verif.Props.Scan
import Verif.Props.Json
import Verif.Props.Mpi
import Verif.Props.Java
import Verif.Props.Xsd
import Verif.Props.Xml
import Verif.Props.XmlWrite
import Verif.Props.XmlRead
import Verif.Props.XmlMore
import Verif.Props.Rest
import Verif.Props.RestReg
import Verif.Props.RestOverload
import Verif.Props.RestCall
import Verif.Props.RestSeq
import Verif.Props.RestMap
import Verif.Props.Tok
import Verif.Props.Enumerators
import Verif.Props.Members
import Verif.Props.JsonLeaf
import Verif.Props.XmlRefs
import Verif.Props.JsonErr
import Verif.Props.XsdMembers
import Verif.Props.Python
import Verif.Props.Xdr
import Verif.Props.Object
import Verif.Props.Bases
import Verif.Props.Poly
import Verif.Props.RandomInit
import Verif.Props.TopLevel
import Verif.Props.Emit
import Verif.Props.TypeName
import Verif.Props.Overload
import Verif.Props.Body
import Verif.Props.Friend
import Verif.Props.Dump
import Verif.Props.PyCont
import Verif.Props.PyScope
import Verif.Props.Isa
import Verif.Props.RestObj
import Verif.Props.PyMod
import Verif.Props.PyLife
import Verif.Props.PyCon
import Verif.Props.RestArr
import Verif.Props.RestSet
import Verif.Props.RestList
import Verif.Props.PolyVal
import Verif.Props.PyClass
import Verif.Props.RestConv
import Verif.Props.PyErr
import Verif.Props.PyDef
import Verif.Props.PyReg
import Verif.Props.PyEnum
import Verif.Props.GraphErr
import Verif.Props.GraphLimit
import Verif.Props.Nested
import Verif.Props.Work
import Verif.Props.Opt
import Verif.Props.Fwd
import Verif.Props.GraphMix
import Verif.Props.BinStream
import Verif.Props.File
import Verif.Props.GraphErrSame
import Verif.Props.Whole
import Verif.Props.XdrNum
import Verif.Props.MpiMsg
import Verif.Props.MpiFarm
import Verif.Props.PyVal
import Verif.Props.XmlSkm
import Verif.Props.JavaObj
import Verif.Props.RestFn
import Verif.Props.XmlFlt
import Verif.Props.ExWrap
import Verif.Props.XmlArr
import Verif.Props.RestSig
import Verif.Props.JniClass
import Verif.Props.JniStub
import Verif.Props.JavaStr
import Verif.Props.XmlFile
import Verif.Props.PyPtr
import Verif.Props.XdrFile
import Verif.Props.FixPriv
import Verif.Props.UnpFail
import Verif.Props.Qt
import Verif.Props.PolyRef
import Verif.Props.OnBase
import Verif.Props.OnBaseXml
import Verif.Props.PyRef
import Verif.Props.PyIndex
import Verif.Props.PyAdd
import Verif.Props.WinStub
