import Verif.Props.ScopeName
import Verif.Props.Scope
import Verif.Props.Registry
import Verif.Props.Match
import Verif.Props.Overloads
import Verif.Props.TypeGraph
import Verif.Props.RegistryConc
import Verif.Props.RegistryRace
import Verif.Props.Value
import Verif.Props.Copying
import Verif.Model.Operators
import Verif.Spec.Operators
import Verif.Lemmas.Declare
import Verif.Lemmas.Operators
import Verif.Props.Operators
import Verif.Props.OperatorArgs
import Verif.Props.MethodCall
import Verif.Props.MovingCalls
import Verif.Model.ValueOps
import Verif.Props.ValueOps
import Verif.Props.Calls
import Verif.Props.Assign
import Verif.Model.Traits
import Verif.Props.Traits
import Verif.Props.Ownership
import Verif.Props.JsonLex
import Verif.Props.JsonSkip
import Verif.Props.JsonView
import Verif.Props.JsonWrite
import Verif.Props.JsonRound
import Verif.Props.JsonRead
import Verif.Props.JsonRefuse
import Verif.Props.JsonPrint
import Verif.Props.Config
import Verif.Props.ErrorFormat
import Verif.Props.TypeName
import Verif.Props.StdTypes
import Verif.Props.StdUse
import Verif.Model.Globals
import Verif.Props.Globals
import Verif.Model.Print
import Verif.Spec.Print
import Verif.Lemmas.Print
import Verif.Lemmas.PrintLines
import Verif.Lemmas.PrintType
import Verif.Props.Print
import Verif.Model.Alloc
import Verif.Props.Alloc
import Verif.Props.Refusals
import Verif.Model.Callable
import Verif.Props.Callable
import Verif.Model.Json.Graph
import Verif.Spec.JsonGraph
import Verif.Lemmas.Json.Graph
import Verif.Lemmas.Json.GraphParse
import Verif.Lemmas.Json.GraphSim
import Verif.Lemmas.Json.GraphFrame
import Verif.Props.JsonGraph
import Verif.Props.Temporaries
import Verif.Lemmas.Json.Charset
import Verif.Props.JsonCharset
import Verif.Props.JsonFault
import Verif.Props.JsonUnfit
import Verif.Conform.Types
import Verif.Conform.Function
import Verif.Conform.Cast
import Verif.Conform.Type
import Verif.Conform.Value
import Verif.Conform.Field
import Verif.Conform.JsonText
import Verif.Conform.JsonTyped
import Verif.Conform.Pointer
import Verif.Conform.Misc
import Verif.Model.Json.Share
import Verif.Spec.JsonShare
import Verif.Lemmas.Json.Share
import Verif.Lemmas.Json.ShareP
import Verif.Lemmas.Json.ShareW
import Verif.Lemmas.Json.SameCache
import Verif.Props.JsonShare
import Verif.Model.Vector
import Verif.Spec.Vector
import Verif.Lemmas.Vector
import Verif.Props.Vector
import Verif.Model.MapFns
import Verif.Spec.MapFns
import Verif.Lemmas.MapFns
import Verif.Props.MapFns
import Verif.Model.SmartPtr
import Verif.Spec.SmartPtr
import Verif.Lemmas.SmartPtr
import Verif.Props.SmartPtr
import Verif.Model.Json.Place
import Verif.Spec.JsonPlace
import Verif.Lemmas.Json.Place
import Verif.Lemmas.Json.PlaceSim
import Verif.Lemmas.Json.PlacePtr
import Verif.Props.JsonPlaceCalls
import Verif.Props.JsonPlace
import Verif.Model.Json.PlacePrint
import Verif.Spec.JsonPlacePrint
import Verif.Lemmas.Json.PlacePrint
import Verif.Props.JsonPlacePrint
import Verif.Props.MapOrder
import Verif.Spec.JsonSorted
import Verif.Props.JsonSorted
import Verif.Model.Numbers
import Verif.Spec.Numbers
import Verif.Lemmas.Numbers
import Verif.Props.Numbers
import Verif.Model.Limits
import Verif.Model.NumberNames
import Verif.Spec.NumberNames
import Verif.Props.NumberNames
import Verif.Model.Json.Session
import Verif.Spec.JsonSession
import Verif.Props.JsonSession
import Verif.Props.Limits
import Verif.Props.JsonMessage
import Verif.Spec.Doubles
import Verif.Lemmas.Doubles
import Verif.Props.Doubles
import Verif.Spec.Floats
import Verif.Props.FloatLimits
