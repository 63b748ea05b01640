import Verif.Py.Str
/-! Specification for releases and manifest URLs. -/
namespace Cdtb.Spec
set_option autoImplicit false
open Py

/-- `t` is `s` where every ".secure.", from left to right, is replaced by "." -/
inductive WithoutSecure : Str → Str → Prop
  | nil : WithoutSecure [] []
  | secure {s t} : WithoutSecure s t → WithoutSecure (".secure.".toList ++ s) ('.' :: t)
  | char {c s t} : ¬ ".secure.".toList <+: c :: s → WithoutSecure s t → WithoutSecure (c :: s) (c :: t)

/-- The base URL of the CDN -/
def cdnUrl : Str := "https://lol.dyn.riotcdn.net/".toList

/-- Path on the CDN of the manifest whose id has digits `h` -/
def manifestPath (h : Str) : Str := "channels/public/releases/".toList ++ h ++ ".manifest".toList

/-- Releases to record for the URLs `(time, client URL, game URL)` fetched one after the other, when the last
recorded ones are `last`: those that are not the same as the previous ones. -/
def changes (last : Option (Str × Str)) : List (Int × Str × Str) → List (Int × Str × Str)
  | [] => []
  | (t, u) :: rest => if last = some u then changes last rest else (t, u) :: changes (some u) rest

end Cdtb.Spec
