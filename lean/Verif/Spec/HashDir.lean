import Verif.Model.HashDir
/-!
# Specification of the directory of hash files and of its updates
-/
namespace Cdtb.Spec
set_option autoImplicit false
open Py

/-! ## Dates -/

/-- Leap years of the Gregorian calendar -/
def leapYear (y : Nat) : Prop := y % 4 = 0 ∧ (y % 100 ≠ 0 ∨ y % 400 = 0)

instance (y : Nat) : Decidable (leapYear y) := inferInstanceAs (Decidable (_ ∧ _))

/-- Number of days of the months of a year -/
def monthDays (y : Nat) : List Nat := [31, if leapYear y then 29 else 28, 31, 30, 31, 30, 31, 31, 30, 31, 30, 31]

/-- Days from 1 January 1970 to a date: those of the years before, of the months before, and of the month. -/
def daysSince1970 (y m d : Nat) : Nat :=
  ((List.range (y - 1970)).map fun i => (monthDays (1970 + i)).sum).sum + ((monthDays y).take (m - 1)).sum + (d - 1)

/-- A number written with two, and with four digits -/
def twoDigits (n : Nat) : Str := [Char.ofNat (48 + n / 10), Char.ofNat (48 + n % 10)]
def fourDigits (n : Nat) : Str := twoDigits (n / 100) ++ twoDigits (n % 100)

/-- `s` is the date of HTTP (RFC 9110, like `Sun, 06 Nov 1994 08:49:37 GMT`) of the second `t` since 1 January 1970. -/
def HttpDate (s : Str) (t : Nat) : Prop :=
  ∃ wd ∈ ["Mon", "Tue", "Wed", "Thu", "Fri", "Sat", "Sun"].map String.toList,
  ∃ (y m d hour min sec : Nat) (month : Str),
    ["Jan", "Feb", "Mar", "Apr", "May", "Jun", "Jul", "Aug", "Sep", "Oct", "Nov", "Dec"][m - 1]? = some (String.ofList month) ∧
    1970 ≤ y ∧ y ≤ 9999 ∧ 1 ≤ m ∧ 1 ≤ d ∧ (∃ n, (monthDays y)[m - 1]? = some n ∧ d ≤ n) ∧ hour < 24 ∧ min < 60 ∧ sec < 60 ∧
    t = daysSince1970 y m d * 86400 + hour * 3600 + min * 60 + sec ∧
    s = wd ++ [',', ' '] ++ twoDigits d ++ [' '] ++ month ++ [' '] ++ fourDigits y ++ [' '] ++
      twoDigits hour ++ [':'] ++ twoDigits min ++ [':'] ++ twoDigits sec ++ [' ', 'G', 'M', 'T']

/-! ## The directory -/

/-- A variable of the environment is set, and not empty. -/
def EnvSet (e : OsEnv) (name : String) (v : Str) : Prop := e.getenv name.toList = some v ∧ v ≠ []

def EnvUnset (e : OsEnv) (name : String) : Prop := ¬∃ v, EnvSet e name v

/-- The path of something in a directory -/
def inDir (dir name : Str) : Str := if dir.getLast? = some '/' then dir ++ name else dir ++ '/' :: name

/-- The directory of the hash files: the one told by `CDTB_HASHES_DIR`; or a subdirectory of `CDRAGON_DATA`; or a
subdirectory of the data directory of the user: `XDG_DATA_HOME` if absolute, or `LOCALAPPDATA`, or `~/.local/share`. -/
inductive HashDir (e : OsEnv) : Str → Prop
  | told {v : Str} : EnvSet e "CDTB_HASHES_DIR" v → HashDir e v
  | data {v : Str} : EnvUnset e "CDTB_HASHES_DIR" → EnvSet e "CDRAGON_DATA" v → HashDir e (inDir v "hashes/lol".toList)
  | xdg {v : Str} : EnvUnset e "CDTB_HASHES_DIR" → EnvUnset e "CDRAGON_DATA" → EnvSet e "XDG_DATA_HOME" v →
      v.head? = some '/' → HashDir e (inDir v "cdragon/data/hashes/lol".toList)
  | local_ {v : Str} : EnvUnset e "CDTB_HASHES_DIR" → EnvUnset e "CDRAGON_DATA" →
      (∀ x, EnvSet e "XDG_DATA_HOME" x → x.head? ≠ some '/') → EnvSet e "LOCALAPPDATA" v →
      HashDir e (inDir v "cdragon/data/hashes/lol".toList)
  | home {v : Str} : EnvUnset e "CDTB_HASHES_DIR" → EnvUnset e "CDRAGON_DATA" →
      (∀ x, EnvSet e "XDG_DATA_HOME" x → x.head? ≠ some '/') → EnvUnset e "LOCALAPPDATA" → e.home = .ok v →
      HashDir e (inDir (inDir v ".local/share".toList) "cdragon/data/hashes/lol".toList)

/-! ## Updates -/

/-- The file on the server, in time: its content and the time of its last change, at each instant, in nanoseconds since
1 January 1970. -/
structure HashServer where
  content : Int → Bytes
  lastChange : Int → Nat

/-- Nothing has changed since the last change. -/
def HashServer.Honest (s : HashServer) : Prop :=
  ∀ t t' : Int, 0 ≤ t' → (s.lastChange t' : Int) ≤ t' ∧
    ((s.lastChange t' : Int) ≤ t → t ≤ t' → s.content t = s.content t' ∧ s.lastChange t = s.lastChange t')

/-- The second of an instant -/
def second (t : Int) : Int := t / 1000000000

/-- A call whose requests are answered by the server (or fail), at `t0` for the first one, and at `t1` for the second one. If
the writing fails, the file can be removed. The file on the server does not change from `t1` to the end of the second
when it is written to disk. -/
structure ServedAt (s : HashServer) (c : UpdateCall) (t0 t1 : Int) : Prop where
  order : t0 ≤ t1 ∧ t1 ≤ c.now
  head : ∀ h, c.head = .ok h → HttpDate h (s.lastChange t0 / 1000000000)
  get : ∀ b, c.get = .ok b → b = s.content t1
  remove : c.faults.remove = false
  quiet : ∀ t, t1 ≤ t → second t ≤ second c.now → (s.lastChange t : Int) ≤ t1

/-- Calls one after the other, between two instants -/
inductive Served (s : HashServer) : Int → List UpdateCall → Int → Prop
  | nil (t : Int) : Served s t [] t
  | cons {t t0 t1 t' : Int} {c : UpdateCall} {cs : List UpdateCall} : t ≤ t0 → ServedAt s c t0 t1 → Served s c.now cs t' →
      Served s t (c :: cs) t'

/-- The disk after a history of updates of a file, some of which may have failed -/
def afterUpdates (dir : Str) (b : Str) : TimedFS → List UpdateCall → TimedFS
  | d, [] => d
  | d, c :: cs => afterUpdates dir b (updateHashfile dir d b c).1 cs

/-- After a successful update of a file: either it has been downloaded, or it was there already and the server has told that
it has not changed since. -/
def Updated (dir : Str) (d d' : TimedFS) (b : Str) (c : UpdateCall) : Prop :=
  (∃ content, c.get = .ok content ∧ d'.fs (inDir dir b) = some (.file content) ∧ d'.mtime (inDir dir b) = c.now) ∨
  (d.fs (inDir dir b) ≠ none ∧ d'.fs (inDir dir b) = d.fs (inDir dir b) ∧ d'.mtime (inDir dir b) = d.mtime (inDir dir b) ∧
    ∃ h, c.head = .ok h ∧ ∀ t : Nat, HttpDate h t → (t : Int) * 1000000000 ≤ d.mtime (inDir dir b))

/-- Nothing happened to a file. -/
def Untouched (dir : Str) (d d' : TimedFS) (b : Str) : Prop :=
  d'.fs (inDir dir b) = d.fs (inDir dir b) ∧ d'.mtime (inDir dir b) = d.mtime (inDir dir b)

/-- The hash files of the server -/
def hashNames : List Str :=
  ["hashes.binentries.txt", "hashes.binfields.txt", "hashes.binhashes.txt", "hashes.bintypes.txt", "hashes.game.txt",
   "hashes.lcu.txt", "hashes.rst.txt", "hashes.rst.xxh64.txt", "hashes.rst.xxh3.txt"].map String.toList

end Cdtb.Spec
