import Verif.FixedVector.PropsAnyType
import Verif.FixedVector.PropsThrowing
import Verif.ArrayRef.Props
import Verif.FilterIterator.Props
import Verif.Zip.Props
import Verif.Algorithm.Props
import Verif.Strings.Props
import Verif.TrivialString.Props
import Verif.TimeUtils.Props
import Verif.TupleUtils.Props
import Verif.TupleUtils.PropsMath
import Verif.MathArray.Props
import Verif.MultiArray.Props
import Verif.Mat.Props
import Verif.Mat.ExpProps
import Verif.Vec.Props
import Verif.Vec.PropsInt
import Verif.Geometry.PropsHex
import Verif.Geometry.PropsConvex
import Verif.Geometry.PropsTrilinear
import Verif.ArrayView.PropsCopy
import Verif.ArrayView.PropsAsking
import Verif.ArrayView.PropsIndex
import Verif.Atomics.PropsOrder
import Verif.Atomics.PropsPublishMany
import Verif.InputEngine.PropsVerdict
import Verif.InputEngine.PropsByTuple
import Verif.InputEngine.PropsOwning
import Verif.InputEngine.PropsSources
import Verif.Elements.PropsJacobian
import Verif.Lagrange.PropsTensor
import Verif.Quadrature.Props
import Verif.LuaStack.PropsValue
import Verif.LuaStack.Refs
import Verif.Dbc.Props
import Verif.Elements.PropsComplete
import Verif.Catalyst.PropsUtils
import Verif.Catalyst.PropsGrid
import Verif.Catalyst.PropsShare
import Verif.Catalyst.PropsWrite
import Verif.Catalyst.PropsMesh
import Verif.Python.Props
import Verif.Macros.Props
import Verif.Arguments.Props
import Verif.Rounding.PropsFar
import Verif.Printing.Props
import Verif.Catalyst.PropsAdaptor
import Verif.MultiArray.PropsArith
import Verif.Macros.PropsMessages
import Verif.Integration.PropsStraight
import Verif.TypeTraits.Props
import Verif.Deck.PropsEngine
import Verif.Deck.PropsWrapper
import Verif.Geometry.PropsMidpoint
import Verif.Geometry.PropsPlanar
import Verif.Making.Props
import Verif.LuaStack.PropsRead
import Verif.Json.PropsScripts
import Verif.Json.PropsCompare
import Verif.Json.PropsGrisu
import Verif.Json.PropsPointer
import Verif.Json.PropsDiff
import Verif.Json.PropsPatch
import Verif.Json.PropsMerge
import Verif.Json.PropsFlatten
import Verif.Json.PropsCbor
import Verif.Json.PropsHalf
import Verif.Json.PropsMsgpack
import Verif.Json.PropsBson
import Verif.Json.PropsUbjson
import Verif.Json.PropsInsert
import Verif.Json.PropsConv
import Verif.Inflate.Props
import Verif.Png.Props
import Verif.Png.PropsFile
import Verif.Png.PropsSafe
import Verif.Png.PropsCompare
import Verif.Png.PropsPnm
import Verif.Png.PropsBmp
import Verif.Png.PropsBmp2
import Verif.Json.PropsSax
import Verif.Json.PropsSieve
import Verif.Json.PropsAccess
import Verif.Json.PropsTorn
import Verif.Json.PropsSpill
import Verif.Json.PropsPlace
import Verif.Png.PropsAny
import Verif.Png.PropsTga2
import Verif.Png.PropsPsd2
import Verif.Png.PropsPic4
