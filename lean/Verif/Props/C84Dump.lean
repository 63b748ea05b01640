import Verif.Props.C84Ends
import Verif.Props.C77
import Verif.Props.C79
/-!
# C84: `bin-dump`, from the command line to what is printed
-/
namespace Cdtb
set_option autoImplicit false
open Py Spec

section
variable (T : ToolLib) (conf : ConfLib) (env dir : Option Str) (fs : FS)

/-- `bin-dump` from the command line: if the file can be read with the version given (`main` by default), and its names can be told apart, its content
is printed line by line, and no file is changed. -/
theorem C84_bin_dumps {p : ParserDef} (hc : ("bin-dump".toList, p) ∈ commandParsers dir) {gs : List GivenOpt} {bin : Str} {argv : List Str}
    (hl : LineOf "bin-dump" p.opts gs [bin] argv) {version : Option Str} (hv : TextGiven gs "patch_version" version) (hj : FlagGiven gs "json" true false)
    {data : Bytes} (hb : fs bin = some (.file data)) {n : Nat} (hn : dumpVersion version = .ok n) {f : BinFile} (hp : parseBin (some n) data = .ok f)
    (hf : FloatTexts T.dump.floatRepr) (hk : ClearNames T.dump.known) (hcl : ClearFile T.dump.known f) :
    T.main conf env dir fs argv = ⟨fs, [fileText T.dump f], .ok ()⟩ := by
  obtain ⟨version', json, h1, h2, h3⟩ := C84_bin_dump T conf env dir fs hc hl
  rw [h3, textGiven_unique h1 hv, flagGiven_unique h2 hj]
  unfold DumpLib.printed
  rw [(C77_command (lib := T.dump) hb hn hp).1, ← C77_layout (lib := T.dump) hf hk hcl]
  rfl

/-- `bin-dump --json` from the command line: if the file can be read with the version given and keys of its maps are integers, booleans, strings or
hashes, a JSON text that denotes its data is printed, and no file is changed. -/
theorem C84_bin_json {p : ParserDef} (hc : ("bin-dump".toList, p) ∈ commandParsers dir) {gs : List GivenOpt} {bin : Str} {argv : List Str}
    (hl : LineOf "bin-dump" p.opts gs [bin] argv) {version : Option Str} (hv : TextGiven gs "patch_version" version) (hj : FlagGiven gs "json" true true)
    {data : Bytes} (hb : fs bin = some (.file data)) {n : Nat} (hn : dumpVersion version = .ok n) {f : BinFile} (hp : parseBin (some n) data = .ok f)
    (hs : SimpleFile f) (hg : GoodWriter T.json) {name : Ser → Str} (hk : KeyNames T.json name) (ha : T.json.ascii = true) :
    ∃ s t, f.ser T.dump.env = .ok s ∧ T.main conf env dir fs argv = ⟨fs, [t], .ok ()⟩ ∧ JsonText t (jsonOf T.json.showF name s) ∧
      DistinctNames (jsonOf T.json.showF name s) := by
  obtain ⟨version', json, h1, h2, h3⟩ := C84_bin_dump T conf env dir fs hc hl
  obtain ⟨s, t, b, k1, k2, -, -, k3, k4⟩ := C79_bin_file hg hk ha T.dump.env (some n) data f hp hs
  refine ⟨s, t, k1, ?_, k3, k4⟩
  rw [h3, textGiven_unique h1 hv, flagGiven_unique h2 hj]
  unfold DumpLib.printed
  rw [(C77_command (lib := T.dump) hb hn hp).2 s k1]
  simp only [bind, Except.bind, BinOutput.print, k2]
  rfl

end

/-! ## Cases -/

namespace C84dump

def dumpDisk : FS := fun p => if p = "a.bin".toList then some (.file demoBin) else none

def demoFile : BinFile :=
  { isPatch := false, version := 3, linked := some [], entries := [{ path := 3, type := 4, fields := [.mk 9 .map (.map .u8 .string [.mk (.int 7) (.str "\"😀".toList)]), .mk 8 .u8 (.int 200)] }], patches := none }

theorem demoFile_read : parseBin (some 9999) demoBin = .ok demoFile := rfl

theorem demoFile_simple : SimpleFile demoFile := by
  refine ⟨?_, ?_⟩
  · intro e he
    rw [List.mem_singleton.1 he]
    exact ⟨⟨Or.inl rfl, trivial, trivial⟩, trivial, trivial⟩
  · intro e he; cases he

/-- `cdtb bin-dump a.bin -j` -/
example (T0 : ToolLib) (conf : ConfLib) (env : Option Str) : ∃ t, ({ T0 with json := demoU } : ToolLib).main conf env none dumpDisk
    (["bin-dump", "a.bin", "-j"].map String.toList) = ⟨dumpDisk, [t], .ok ()⟩ := by
  let g : GivenOpt := ⟨optTrue ["-j", "--json"] "json", "-j".toList, []⟩
  have hline : LineOf "bin-dump" _ [g] ["a.bin".toList] (["bin-dump", "a.bin", "-j"].map String.toList) :=
    LineOf.plain (opts := [optHelp, optTrue ["-j", "--json"] "json", optOne ["-V", "--patch-version"] "patch_version"]) 0 [] [g] ["a.bin".toList]
      (by
        intro g' hg
        have hg : g' ∈ [g] := by simpa using hg
        rw [List.mem_singleton.1 hg]
        exact ⟨by simp [g], by decide +kernel, by simp [g], rfl⟩)
      (by simp [PlainWord]) (by rintro - ⟨g, hg, -⟩; simp at hg)
  have hv : TextGiven [g] "patch_version" none := .default (by
    intro g' hg
    rw [List.mem_singleton.1 hg]
    show "json".toList ≠ "patch_version".toList
    decide +kernel)
  obtain ⟨s, t, -, h, -⟩ := C84_bin_json { T0 with json := demoU } conf env none dumpDisk
    (by unfold commandParsers; exact List.mem_of_getElem? (i := 8) rfl) hline hv (.last [] g [] (.bool true) rfl rfl (by simp) rfl)
    (show dumpDisk "a.bin".toList = some (.file demoBin) by unfold dumpDisk; rw [if_pos rfl]) C77_version_default.1 demoFile_read demoFile_simple
    demoU_good demoU_names rfl
  exact ⟨t, h⟩

/-- `cdtb bin-dump a.bin` -/
example (T0 : ToolLib) (conf : ConfLib) (env : Option Str) : ({ T0 with dump := someDump } : ToolLib).main conf env none dumpDisk
    (["bin-dump", "a.bin"].map String.toList) = ⟨dumpDisk, [fileText someDump demoFile], .ok ()⟩ := by
  have hline : LineOf "bin-dump" _ [] ["a.bin".toList] (["bin-dump", "a.bin"].map String.toList) :=
    LineOf.plain (opts := [optHelp, optTrue ["-j", "--json"] "json", optOne ["-V", "--patch-version"] "patch_version"]) 0 [] [] ["a.bin".toList] (by simp)
      (by simp [PlainWord]) (by rintro - ⟨g, hg, -⟩; simp at hg)
  refine C84_bin_dumps { T0 with dump := someDump } conf env none dumpDisk
    (by unfold commandParsers; exact List.mem_of_getElem? (i := 8) rfl) hline (version := none) (.default (by simp)) (.default (by simp))
    (show dumpDisk "a.bin".toList = some (.file demoBin) by unfold dumpDisk; rw [if_pos rfl]) C77_version_default.1 demoFile_read
    C77_floats_met C77_names_met ?_
  refine ⟨?_, ?_⟩
  · intro e he
    rw [List.mem_singleton.1 he]
    exact .cons (.map (.cons .int .str .nil)) (.cons .int .nil)
  · intro e he; cases he

end C84dump

end Cdtb
