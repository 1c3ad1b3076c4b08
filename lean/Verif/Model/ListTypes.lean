import Verif.Model.Http
import Verif.Model.Projection

/-!
# Model: the list of aggregate types of the HTTP API

`listAggregateTypes` of `pkg/rangedbapi/api.go`, on statistics that do not change meanwhile (the statistics while
events arrive are in `Model/Pages`).
-/

namespace RangeDB.Http

open Json

/-- The names of the fields and the parts of the links (api.go:290-310). -/
def kLinks : Str := [108, 105, 110, 107, 115]
def kName : Str := [110, 97, 109, 101]
def kSelf : Str := [115, 101, 108, 102]
def kAllEvents : Str := [97, 108, 108, 69, 118, 101, 110, 116, 115]
def kTotalEvents : Str := [116, 111, 116, 97, 108, 69, 118, 101, 110, 116, 115]
def tByType : Str :=
  [47, 101, 118, 101, 110, 116, 115, 45, 98, 121, 45, 97, 103, 103, 114, 101, 103, 97, 116, 101, 45, 116, 121, 112, 101, 47]
def tDotJson : Str := [46, 106, 115, 111, 110]
def tAllEvents : Str := [47, 97, 108, 108, 45, 101, 118, 101, 110, 116, 115, 46, 106, 115, 111, 110]
def tListTypes : Str :=
  [47, 108, 105, 115, 116, 45, 97, 103, 103, 114, 101, 103, 97, 116, 101, 45, 116, 121, 112, 101, 115]

/-- The link to the events of a type (api.go:294): the name is not escaped. -/
def selfLink (base t : Str) : Str := base ++ (tByType ++ (t ++ tDotJson))

/-- One element of the list (api.go:290-296); `encoding/json` writes the entries of a map in the order of their
keys. -/
def typeRow (base : Str) (s : Prj.Stats) (t : Str) : Json :=
  .obj [(kLinks, .obj [(kSelf, .str (selfLink base t))]), (kName, .str t),
    (kTotalEvents, .num (Dec.natText (s.totalByType t)))]

/-- The list as a value (api.go:289-311): without a type `data` is a nil slice, which is written as `null`. -/
def listJson (base : Str) (s : Prj.Stats) : Json :=
  .obj [(kData, match s.sortedTypes with | [] => .null | t :: ts => .arr ((t :: ts).map (typeRow base s))),
    (kTotalEvents, .num (Dec.natText s.total)),
    (kLinks, .obj [(kAllEvents, .str (base ++ tAllEvents)), (kSelf, .str (base ++ tListTypes))])]

/-- `listAggregateTypes` (api.go:288-316). -/
def listAggregateTypes (base : Str) (s : Prj.Stats) : Response := ⟨200, (listJson base s).text ++ [10]⟩

end RangeDB.Http
