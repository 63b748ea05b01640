import Verif.Model.Latest
/-! # Where the URLs of the latest release come from -/
namespace Cdtb
set_option autoImplicit false
open Py
namespace Spec

/-- `v[k1][k2]…` is `w`, in a document where objects are read with their first field of that name -/
def At : Json → List Str → Json → Prop
  | v, [], w => v = w
  | v, k :: ks, w => ∃ a b x, v = .obj (a ++ (k, x) :: b) ∧ (∀ e ∈ a, e.1 ≠ k) ∧ At x ks w

/-- The server answers `b` to a request, without error -/
def WebServes (web : Web) (url : Str) (b : Bytes) : Prop := ∃ r, web url = .ok r ∧ ¬ (400 ≤ r.status ∧ r.status ≤ 599) ∧ r.body = b

/-- The server, or the connection to it, fails with an exception -/
def Down (web : Web) (url : Str) (e : Err) : Prop := web url = .error e ∨ ∃ r, web url = .ok r ∧ 400 ≤ r.status ∧ r.status ≤ 599 ∧ e = .http r.status

/-- A setting that names a server -/
def IsUrl (s : Str) : Prop := "http://".toList <+: s ∨ "https://".toList <+: s

/-- Name of a server or of a file -/
inductive Source where
  | file (path : Str)
  | url (url : Str)

/-- Where client configurations are, with a setting `clientconfig` -/
inductive SourceOf (fs : FS) : CVal → Source → Prop
  | unset : SourceOf fs .null (.url clientConfigUrl)
  | false : SourceOf fs (.bool false) (.url clientConfigUrl)
  | empty : SourceOf fs (.str []) (.url clientConfigUrl)
  | server (s : Str) : IsUrl s → SourceOf fs (.str s) (.url s)
  | missing (s : Str) : s ≠ [] → fs s = none → SourceOf fs (.str s) (.url s)
  | file (s : Str) : s ≠ [] → ¬ IsUrl s → fs s ≠ none → SourceOf fs (.str s) (.file s)

/-- The document of a source -/
def Source.Gives (fs : FS) (web : Web) : Source → Bytes → Prop
  | .file p, b => fs p = some (.file b)
  | .url u, b => WebServes web u b

/-- A document is the UTF-8 text of a JSON value -/
def Document (loads : Str → Option Json) (b : Bytes) (v : Json) : Prop := ∃ s, utf8 b = .ok s ∧ loads s = some v

/-- The client URL of a patchline in a document: that of its first windows configuration for the region -/
def ClientUrlIn (patchline region : Str) (doc u : Json) : Prop :=
  ∃ before c after, At doc ["keystone.products.league_of_legends.patchlines.".toList ++ patchline, "platforms".toList, "win".toList,
      "configurations".toList] (.arr (before ++ c :: after)) ∧
    (∀ x ∈ before, ∃ id, At x ["id".toList] id ∧ id ≠ .str region) ∧
    At c ["id".toList] (.str region) ∧ At c ["patch_url".toList] u

/-- The game URL in a document: that of its only release -/
def GameUrlIn (doc u : Json) : Prop := ∃ r, At doc ["releases".toList] (.arr [r]) ∧ At r ["download".toList, "url".toList] u

end Spec
end Cdtb
