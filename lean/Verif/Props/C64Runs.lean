import Verif.Props.C64
import Verif.Props.C63Runs
/-!
# C64, continued: when nothing fails all patch elements are given, whatever happened before
-/
namespace Cdtb
set_option autoImplicit false
open Py Spec

section
variable {cfg : RadsCfg} {site : RadsSite} {served : Str → Option Bytes} {inflate : Bytes → Res Bytes}

/-- Disks on which requests succeed -/
structure ReadyRads (cfg : RadsCfg) (site : RadsSite) (served : Str → Option Bytes) (fs : FS) : Prop where
  good : GoodRads cfg.base site served cfg.exe fs
  clear : ClearRads cfg.base site served fs

/-- A call of `patch_version` -/
theorem call_succeeds (hpbe : cfg.url ≠ urlPbe) (hon : cfg.On site served inflate) (hap : site.Apart) {ws : Nat → RadsWorld}
    (hws : ∀ i, PerfectRads served (ws i)) (hcwd : ∀ i p, (ws i).cwd p = false) {st : RadsState} (hr : ReadyRads cfg site served st.fs)
    {sv : SolVer} (hsv : sv.Plain) (hk : site.Known served cfg.exe sv.name sv.version.s) :
    ReadyRads cfg site served (cfg.call ws st sv).1.fs ∧ ∃ r, (cfg.call ws st sv).2 = .ok r := by
  obtain ⟨t, r, h1, h2⟩ := hk.patch
  refine ⟨⟨adds_good hr.good (call_spec hpbe hon (fun i => (hws i).ok) hr.good hsv).1,
    clear_grows hon.ok hap hr.clear (grows_version hon (hws st.calls).ok hr.good hsv)⟩, r, ?_⟩
  exact C63_version_succeeds hpbe hon hap st.fs hr.good hr.clear [] (by simp) (ws st.calls) (hws st.calls) (hcwd st.calls) sv hsv t r h1 h2 hk.files

theorem nextElem_succeeds (hpbe : cfg.url ≠ urlPbe) (hon : cfg.On site served inflate) (hap : site.Apart) {ws : Nat → RadsWorld}
    (hws : ∀ i, PerfectRads served (ws i)) (hcwd : ∀ i p, (ws i).cwd p = false) {solution name : Str} (hname : elementName solution = .ok name)
    (svs : List SolVer) (hsvs : ∀ sv ∈ svs, sv.Plain ∧ sv.name = solution) (hk : ∀ sv ∈ svs, site.Known served cfg.exe sv.name sv.version.s)
    {st : RadsState} (hr : ReadyRads cfg site served st.fs) :
    ReadyRads cfg site served (cfg.nextElem ws st svs).1.fs ∧ ∃ x, (cfg.nextElem ws st svs).2 = .ok x := by
  induction svs generalizing st with
  | nil => exact ⟨hr, _, rfl⟩
  | cons sv svs ih =>
    obtain ⟨hsv, hsn⟩ := hsvs sv (by simp)
    obtain ⟨h1, o, h2⟩ := call_succeeds hpbe hon hap hws hcwd hr hsv (hk sv (by simp))
    have h3 := (call_spec hpbe hon (fun i => (hws i).ok) hr.good hsv).2.2
    unfold RadsCfg.nextElem
    rcases hc : cfg.call ws st sv with ⟨st1, r⟩
    rw [hc] at h1 h2 h3
    simp only at h1 h2 h3
    subst h2
    cases o with
    | none => exact ih (fun x hx => hsvs x (by simp [hx])) (fun x hx => hk x (by simp [hx])) h1
    | some v =>
      have hcall := h3 v rfl st1.calls
      simp only [RadsCfg.element, hsn, hname]
      have : (⟨st1.fs, st1.calls⟩ : RadsState) = st1 := rfl
      rw [this] at hcall
      rw [hcall]
      exact ⟨h1, _, rfl⟩

theorem peek_succeeds (hpbe : cfg.url ≠ urlPbe) (hon : cfg.On site served inflate) (hap : site.Apart) {ws : Nat → RadsWorld}
    (hws : ∀ i, PerfectRads served (ws i)) (hcwd : ∀ i p, (ws i).cwd p = false) {solution name : Str} (hname : elementName solution = .ok name)
    {p : Peeker} (hp : PeekOk site cfg.exe solution name p) (hk : ∀ sv ∈ p.rest, site.Known served cfg.exe sv.name sv.version.s)
    {st : RadsState} (hr : ReadyRads cfg site served st.fs) :
    ReadyRads cfg site served (cfg.peek ws st p).1.fs ∧ ∃ p', (cfg.peek ws st p).2 = .ok p' := by
  obtain ⟨cur, rest⟩ := p
  unfold RadsCfg.peek
  cases cur with
  | some e => exact ⟨hr, _, rfl⟩
  | none =>
    obtain ⟨h1, x, h2⟩ := nextElem_succeeds hpbe hon hap hws hcwd hname rest hp.rest hk hr
    simp only
    rcases hn : cfg.nextElem ws st rest with ⟨st1, r⟩
    rw [hn] at h1 h2
    simp only at h1 h2
    subst h2
    obtain ⟨a, b⟩ := x
    exact ⟨h1, _, rfl⟩

theorem mergeLoop_succeeds (hpbe : cfg.url ≠ urlPbe) (hon : cfg.On site served inflate) (hap : site.Apart) {ws : Nat → RadsWorld}
    (hws : ∀ i, PerfectRads served (ws i)) (hcwd : ∀ i p, (ws i).cwd p = false)
    (n : Nat) {c g : Peeker} (hc : PeekOk site cfg.exe "league_client_sln".toList "client".toList c)
    (hgm : PeekOk site cfg.exe "lol_game_client_sln".toList "game".toList g) (hcn : c.Nums) (hgn : g.Nums)
    (hkc : ∀ sv ∈ c.rest, site.Known served cfg.exe sv.name sv.version.s) (hkg : ∀ sv ∈ g.rest, site.Known served cfg.exe sv.name sv.version.s)
    {st : RadsState} (hr : ReadyRads cfg site served st.fs) (hn : c.size + g.size < n) :
    (cfg.mergeLoop ws n st c g).2.2 = .ok () := by
  have hnc : elementName "league_client_sln".toList = .ok "client".toList := by decide +kernel
  have hng : elementName "lol_game_client_sln".toList = .ok "game".toList := by decide +kernel
  generalize "client".toList = client at *
  generalize "game".toList = game at *
  generalize "league_client_sln".toList = csln at *
  generalize "lol_game_client_sln".toList = gsln at *
  have hwo := fun i => (hws i).ok
  induction n generalizing st c g with
  | zero => omega
  | succ n ih =>
    unfold RadsCfg.mergeLoop
    obtain ⟨-, b1⟩ := peek_spec hpbe hon hwo hnc hc hr.good
    obtain ⟨r1, c', e1⟩ := peek_succeeds hpbe hon hap hws hcwd hnc hc hkc hr
    rcases hp : cfg.peek ws st c with ⟨st1, x⟩
    rw [hp] at r1 e1 b1
    simp only at r1 e1
    subst e1
    obtain ⟨hc', hcs, -, donec, lc, ec1, ec2, ec3⟩ := b1 c' rfl
    simp only
    obtain ⟨-, b2⟩ := peek_spec hpbe hon hwo hng hgm r1.good
    obtain ⟨r2, g', e2⟩ := peek_succeeds hpbe hon hap hws hcwd hng hgm hkg r1
    rcases hp2 : cfg.peek ws st1 g with ⟨st2, x⟩
    rw [hp2] at r2 e2 b2
    simp only at r2 e2
    subst e2
    obtain ⟨hg', hgs, -, doneg, lg, eg1, eg2, eg3⟩ := b2 g' rfl
    simp only
    have hcn' : c'.Nums := by
      intro e he
      have : e ∈ c.cur.toList ++ lc := by rw [ec3, he]; simp
      rcases List.mem_append.1 this with h | h
      · exact hcn e (by simpa using h)
      · obtain ⟨a, b, h⟩ := ec2.nums hon e h; exact ⟨_, h⟩
    have hgn' : g'.Nums := by
      intro e he
      have : e ∈ g.cur.toList ++ lg := by rw [eg3, he]; simp
      rcases List.mem_append.1 this with h | h
      · exact hgn e (by simpa using h)
      · obtain ⟨a, b, h⟩ := eg2.nums hon e h; exact ⟨_, h⟩
    have hkc' : ∀ sv ∈ c'.rest, site.Known served cfg.exe sv.name sv.version.s := fun sv h => hkc sv (by rw [ec1]; simp [h])
    have hkg' : ∀ sv ∈ g'.rest, site.Known served cfg.exe sv.name sv.version.s := fun sv h => hkg sv (by rw [eg1]; simp [h])
    rcases hb : bestElem c'.cur g'.cur with e | o
    · exfalso
      cases h1 : c'.cur with
      | none => rw [h1] at hb; cases h2 : g'.cur <;> rw [h2] at hb <;> simp [bestElem] at hb
      | some x =>
        cases h2 : g'.cur with
        | none => rw [h1, h2] at hb; simp [bestElem] at hb
        | some y =>
          obtain ⟨t, ht⟩ := hcn' x h1
          obtain ⟨u, hu⟩ := hgn' y h2
          obtain ⟨r, hr⟩ := cmp_nums hu ht .gt
          rw [h1, h2] at hb
          simp [bestElem, hr, Except.map] at hb
    rcases bestElem_spec hb with ⟨rfl, h1, h2⟩ | ⟨e, rfl, h1, h2⟩ | ⟨e, rfl, h1, h2⟩
    · rfl
    · have hs : ({ c' with cur := none } : Peeker).size + 1 = c'.size := by simp [Peeker.size, h1]; omega
      have m := ih (c := { c' with cur := none }) (g := g') (by intro e he; simp at he) hgn' hkc' hkg' r2 (by omega) ⟨hc'.rest, by simp⟩ hg'
      exact m
    · have hs : ({ g' with cur := none } : Peeker).size + 1 = g'.size := by simp [Peeker.size, h1]; omega
      have m := ih (c := c') (g := { g' with cur := none }) hcn' (by intro e he; simp at he) hkc' hkg' r2 (by omega) hc' ⟨hg'.rest, by simp⟩
      exact m

theorem solutionVersions_succeeds {names : List Str} (h : ∀ n ∈ names, ∃ v, radsVersion (.str n) = .ok v) : ∃ vs, solutionVersions names = .ok vs := by
  have key : ∃ ws, names.mapM (fun l => radsVersion (.str l)) = .ok ws := by
    induction names with
    | nil => exact ⟨[], rfl⟩
    | cons x l ih =>
      obtain ⟨v, hv⟩ := h x (by simp)
      obtain ⟨ws, hws⟩ := ih fun n hn => h n (by simp [hn])
      exact ⟨v :: ws, by rw [List.mapM_cons, hv, hws]; rfl⟩
  obtain ⟨ws, hws⟩ := key
  exact ⟨sortVersions ws, by simp only [solutionVersions, hws]; rfl⟩

theorem startGen_succeeds (hpbe : cfg.url ≠ urlPbe) (hon : cfg.On site served inflate) (hap : site.Apart) {ws : Nat → RadsWorld}
    (hws : ∀ i, PerfectRads served (ws i)) (hcwd : ∀ i p, (ws i).cwd p = false) {solution name : Str} (hname : elementName solution = .ok name)
    (hsl : '/' ∉ solution) {names : List Str} (hl : ∀ n ∈ names, '/' ∉ n) (hv : ∀ n ∈ names, ∃ v, radsVersion (.str n) = .ok v)
    (hk : ∀ n ∈ names, site.Known served cfg.exe solution n) {st : RadsState} (hr : ReadyRads cfg site served st.fs) :
    ReadyRads cfg site served (cfg.startGen ws st solution (.ok names)).1.fs ∧ ∃ p, (cfg.startGen ws st solution (.ok names)).2 = .ok p ∧
      PeekOk site cfg.exe solution name p ∧ p.Nums ∧ ∀ sv ∈ p.rest, site.Known served cfg.exe sv.name sv.version.s := by
  obtain ⟨vs, hvs⟩ := solutionVersions_succeeds hv
  have hnf := newestFirst hvs
  have hmem : ∀ sv ∈ vs.map (SolVer.mk solution), sv.version.s ∈ names ∧ sv.name = solution := by
    intro sv hsv
    obtain ⟨v, hv, rfl⟩ := List.mem_map.1 hsv
    exact ⟨hnf.listed.mem_iff.1 (List.mem_map_of_mem hv), rfl⟩
  have hkn : ∀ sv ∈ vs.map (SolVer.mk solution), site.Known served cfg.exe sv.name sv.version.s := by
    intro sv hsv
    obtain ⟨h1, h2⟩ := hmem sv hsv
    rw [h2]
    exact hk _ h1
  have hp : PeekOk site cfg.exe solution name ⟨none, vs.map (SolVer.mk solution)⟩ :=
    ⟨fun sv hsv => ⟨⟨by rw [(hmem sv hsv).2]; exact hsl, hl _ (hmem sv hsv).1⟩, (hmem sv hsv).2⟩, by simp⟩
  have key := (startGen_spec (st := st) (listing := .ok names) hpbe hon (fun i => (hws i).ok) hname hsl (by rintro _ ⟨⟩; exact hl) hr.good).2.2
  have hst : cfg.startGen ws st solution (.ok names) = cfg.peek ws st ⟨none, vs.map (SolVer.mk solution)⟩ := by
    simp only [RadsCfg.startGen, hvs]
  obtain ⟨h1, p, h2⟩ := peek_succeeds hpbe hon hap hws hcwd hname hp hkn hr
  rw [← hst] at h1 h2
  obtain ⟨names', vs', e1, e2, h3, h4, done, l, h5, -⟩ := key p h2
  cases e1
  rw [hvs] at e2
  cases e2
  exact ⟨h1, p, h2, h3, h4, fun sv hsv => hkn sv (by rw [h5]; simp [hsv])⟩

/-- After any operations, whether they failed or not, when nothing fails all the elements of both solutions are given, with no error. -/
theorem C64_succeeds (hpbe : cfg.url ≠ urlPbe) (hon : cfg.On site served inflate) (hap : site.Apart) (fs : FS)
    (hg : GoodRads cfg.base site served cfg.exe fs) (hc : ClearRads cfg.base site served fs) (ops : List RadsOp) (hops : ∀ op ∈ ops, op.Legit served)
    (ws : Nat → RadsWorld) (hws : ∀ i, PerfectRads served (ws i)) (hcwd : ∀ i p, (ws i).cwd p = false) (cs gs : List Str)
    (hcs : ∀ n ∈ cs, '/' ∉ n ∧ (∃ v, radsVersion (.str n) = .ok v) ∧ site.Known served cfg.exe "league_client_sln".toList n)
    (hgs : ∀ n ∈ gs, '/' ∉ n ∧ (∃ v, radsVersion (.str n) = .ok v) ∧ site.Known served cfg.exe "lol_game_client_sln".toList n) :
    ∃ l, (cfg.patchElements ws (ops.foldl (RadsOp.run cfg) fs) (.ok cs) (.ok gs)).2 = (l, .ok ()) ∧
      (∀ e ∈ l, e.name = "client".toList ∨ e.name = "game".toList) ∧
      AllElems site cfg.exe "client".toList "league_client_sln".toList cs (elemsNamed "client".toList l) ∧
      AllElems site cfg.exe "game".toList "lol_game_client_sln".toList gs (elemsNamed "game".toList l) := by
  have hg1 := (C63_history hon fs hg ops hops).2
  have hc1 := clear_grows hon.ok hap hc (grows_ops hon ops hops hg)
  generalize ops.foldl (RadsOp.run cfg) fs = fs1 at hg1 hc1
  have hok : (cfg.patchElements ws fs1 (.ok cs) (.ok gs)).2.2 = .ok () := by
    have hnc : elementName "league_client_sln".toList = .ok "client".toList := by decide +kernel
    have hng : elementName "lol_game_client_sln".toList = .ok "game".toList := by decide +kernel
    have hsc : '/' ∉ "league_client_sln".toList := by decide +kernel
    have hsg : '/' ∉ "lol_game_client_sln".toList := by decide +kernel
    obtain ⟨h1, p, h2, h3, h4, h5⟩ := startGen_succeeds (st := ⟨fs1, 0⟩) hpbe hon hap hws hcwd hnc hsc (fun n hn => (hcs n hn).1) (fun n hn => (hcs n hn).2.1)
      (fun n hn => (hcs n hn).2.2) ⟨hg1, hc1⟩
    unfold RadsCfg.patchElements
    rcases hs : cfg.startGen ws ⟨fs1, 0⟩ "league_client_sln".toList (.ok cs) with ⟨st1, x⟩
    rw [hs] at h1 h2
    simp only at h1 h2
    subst h2
    simp only
    obtain ⟨k1, q, k2, k3, k4, k5⟩ := startGen_succeeds (st := st1) hpbe hon hap hws hcwd hng hsg (fun n hn => (hgs n hn).1) (fun n hn => (hgs n hn).2.1)
      (fun n hn => (hgs n hn).2.2) h1
    rcases hs2 : cfg.startGen ws st1 "lol_game_client_sln".toList (.ok gs) with ⟨st2, x⟩
    rw [hs2] at k1 k2
    simp only at k1 k2
    subst k2
    exact mergeLoop_succeeds hpbe hon hap hws hcwd _ h3 k3 h4 k4 h5 k5 k1 (Nat.lt_succ_self _)
  obtain ⟨l, hl⟩ : ∃ l, (cfg.patchElements ws fs1 (.ok cs) (.ok gs)).2 = (l, .ok ()) := ⟨_, Prod.ext rfl hok⟩
  obtain ⟨cs', gs', e1, e2, h⟩ := C64_elements hpbe hon ws (fun i => (hws i).ok) fs1 hg1 (.ok cs) (.ok gs) (by rintro _ ⟨⟩ n hn; exact (hcs n hn).1)
    (by rintro _ ⟨⟩ n hn; exact (hgs n hn).1) l hl
  cases e1
  cases e2
  exact ⟨l, hl, h⟩

end

/-! ## The concrete server -/

theorem radsKnown {sv : SolVer} (hpl : sv.Plain) {r : Option Version} (h : (radsCfg.patchVersion radsWorld radsDisk sv).2 = .ok r) :
    radsSite.Known radsServed radsCfg.exe sv.name sv.version.s := by
  have hpbe : radsCfg.url ≠ urlPbe := by decide +kernel
  obtain ⟨t, h2, h3⟩ := ((version_spec hpbe radsOn radsWorldOk radsDisk_good hpl).2 _ h).1
  exact ⟨⟨t, r, h2, h3⟩, fun m p v es e _ _ _ hes he => (radsComplete ⟨es, hes⟩).files es hes e he⟩

/-- The elements are not given when the stream is cut; they are afterwards. -/
theorem C64_succeeds_case :
    (radsCfg.patchElements (fun _ => radsFailing) radsDisk (.ok ["0.0.1.7".toList]) (.ok ["0.0.0.9".toList, "0.0.1.5".toList])).2.2 ≠ .ok () ∧
    ∃ l, (radsCfg.patchElements (fun _ => radsWorld) ([RadsOp.version radsFailing radsClient, .version radsFailing radsGame].foldl (RadsOp.run radsCfg) radsDisk)
        (.ok ["0.0.1.7".toList]) (.ok ["0.0.0.9".toList, "0.0.1.5".toList])).2 = (l, .ok ()) ∧
      AllElems radsSite radsCfg.exe "client".toList "league_client_sln".toList ["0.0.1.7".toList] (elemsNamed "client".toList l) ∧
      AllElems radsSite radsCfg.exe "game".toList "lol_game_client_sln".toList ["0.0.0.9".toList, "0.0.1.5".toList] (elemsNamed "game".toList l) := by
  have hpbe : radsCfg.url ≠ urlPbe := by decide +kernel
  have p1 : radsClient.Plain := ⟨by decide +kernel, by decide +kernel⟩
  have p2 : radsGame.Plain := ⟨by decide +kernel, by decide +kernel⟩
  have p3 : radsOldGame.Plain := ⟨by decide +kernel, by decide +kernel⟩
  have k1 : radsSite.Known radsServed radsCfg.exe radsClient.name radsClient.version.s :=
    radsKnown (r := some ⟨"8.1".toList, .nums [8, 1]⟩) p1 (by decide +kernel)
  have k2 : radsSite.Known radsServed radsCfg.exe radsGame.name radsGame.version.s :=
    radsKnown (r := some ⟨"8.2".toList, .nums [8, 2]⟩) p2 (by decide +kernel)
  have k3 : radsSite.Known radsServed radsCfg.exe radsOldGame.name radsOldGame.version.s := radsKnown (r := none) p3 (by decide +kernel)
  refine ⟨by decide +kernel, ?_⟩
  have hops : ∀ op ∈ [RadsOp.version radsFailing radsClient, .version radsFailing radsGame], op.Legit radsServed := by
    intro op hop
    rcases List.mem_cons.1 hop with rfl | hop
    · exact ⟨radsFailing_ok, p1⟩
    · rw [List.mem_singleton] at hop
      subst hop
      exact ⟨radsFailing_ok, p2⟩
  have h1 : ∀ n ∈ ["0.0.1.7".toList], '/' ∉ n ∧ (∃ v, radsVersion (.str n) = .ok v) ∧
      radsSite.Known radsServed radsCfg.exe "league_client_sln".toList n := by
    intro n hn
    rw [List.mem_singleton] at hn
    subst hn
    exact ⟨by decide +kernel, ⟨radsClient.version, by decide +kernel⟩, k1⟩
  have h2 : ∀ n ∈ ["0.0.0.9".toList, "0.0.1.5".toList], '/' ∉ n ∧ (∃ v, radsVersion (.str n) = .ok v) ∧
      radsSite.Known radsServed radsCfg.exe "lol_game_client_sln".toList n := by
    intro n hn
    rcases List.mem_cons.1 hn with rfl | hn
    · exact ⟨by decide +kernel, ⟨radsOldGame.version, by decide +kernel⟩, k3⟩
    · rw [List.mem_singleton] at hn
      subst hn
      exact ⟨by decide +kernel, ⟨radsGame.version, by decide +kernel⟩, k2⟩
  obtain ⟨l, h3, -, h4⟩ := C64_succeeds hpbe radsOn radsApart radsDisk radsDisk_good radsDisk_clear _ hops (fun _ => radsWorld) (fun _ => radsPerfect)
    (fun _ _ => rfl) _ _ h1 h2
  exact ⟨l, h3, h4⟩

end Cdtb
