import Verif.Spec.Progress
import Mathlib.Data.List.Induction
/-!
# C75: iteration with progress on SIGINT gives the items of the sequence, whatever the signals
-/
namespace Cdtb
set_option autoImplicit false
open Spec

variable {α : Type}

/-- The item taken from the sequence and not yet given -/
def pendingItem : ProgPoint α → List α
  | .check v => [v]
  | .show v => [v]
  | .reset v => [v]
  | .give v => [v]
  | _ => []

/-- What holds after any schedule -/
structure ProgInv (seq : List α) (s : ProgState α) : Prop where
  index : s.index = s.given.length
  isPrefix : s.given <+: seq
  running : s.point ≠ .restoring → s.point ≠ .ended → s.given ++ pendingItem s.point ++ s.rest = seq
  finished : s.point = .restoring ∨ s.point = .ended → s.raised = false → s.closed = false → s.given = seq
  before : s.point = .fresh ∨ s.point = .entering → s.handler = .previous ∧ s.given = []
  during : s.point ≠ .fresh → s.point ≠ .entering → s.point ≠ .ended → s.handler = .ours
  after : s.point = .ended → s.raised = false → s.handler = .previous
  lines : ∀ i v, (i, v) ∈ s.printed → seq[i]? = some v
  sorted : (s.printed.map Prod.fst).Pairwise (· < ·)
  bound : ∀ i v, (i, v) ∈ s.printed → i < s.given.length ∨ (i = s.given.length ∧ (s.point = .reset v ∨ s.point = .give v ∨ s.point = .restoring ∨ s.point = .ended))

theorem progInv_init (seq : List α) : ProgInv seq { rest := seq } where
  index := rfl
  isPrefix := List.nil_prefix
  running := by intros; rfl
  finished := by simp
  before := by simp
  during := by simp
  after := by simp
  lines := by simp
  sorted := by simp
  bound := by simp

/-- What `simp` leaves about printed lines -/
macro "progrest" h8:ident h10:ident : tactic =>
  `(tactic| first | assumption | exact $h8 | exact $h10 | (intro i w hm; exact .inl ($h10 i w hm)) | (intro i w hm; have := $h10 i w hm; simp_all))

theorem progInv_step (seq : List α) (s : ProgState α) (h : ProgInv seq s) : ProgInv seq (progStep s) := by
  obtain ⟨rest, index, point, inter, tlast, handler, given, printed, raised, closed⟩ := s
  obtain ⟨h1, h2, h3, h4, h5, h6, h7, h8, h9, h10⟩ := h
  cases point with
  | loop =>
    cases rest with
    | nil =>
      constructor <;> simp_all [progStep, pendingItem] <;> progrest h8 h10
    | cons v vs => constructor <;> simp_all [progStep, pendingItem] <;> progrest h8 h10
  | check v =>
    cases inter <;> (constructor <;> simp_all [progStep, pendingItem] <;> progrest h8 h10)
  | «show» v =>
    have h3' : given ++ v :: rest = seq := by simpa [pendingItem] using h3
    constructor <;> simp_all [progStep, pendingItem]
    · rintro i w (hm | ⟨rfl, rfl⟩)
      · exact h8 i w hm
      · rw [← h3']; simp
    · rw [List.pairwise_append]
      refine ⟨h9, by simp, ?_⟩
      intro a ha b hb
      simp only [List.mem_map, Prod.exists, exists_and_right, exists_eq_right] at ha
      obtain ⟨w, hw⟩ := ha
      simp at hb
      have := h10 a w hw; omega
    · rintro i w (hm | ⟨rfl, rfl⟩)
      · exact .inl (h10 i w hm)
      · exact .inr ⟨rfl, rfl⟩
  | reset v =>
    constructor <;> simp_all [progStep, pendingItem] <;> progrest h8 h10
  | give v =>
    have h3' : given ++ v :: rest = seq := by simpa [pendingItem] using h3
    constructor <;> simp_all [progStep, pendingItem]
    · rw [← h3']; exact ⟨rest, by simp⟩
    · assumption
    · intro i w hm
      rcases h10 i w hm with h | h
      · omega
      · have := h.1; omega
  | fresh => exact ⟨h1, h2, h3, h4, h5, h6, h7, h8, h9, h10⟩
  | suspended => exact ⟨h1, h2, h3, h4, h5, h6, h7, h8, h9, h10⟩
  | ended => exact ⟨h1, h2, h3, h4, h5, h6, h7, h8, h9, h10⟩
  | entering => constructor <;> simp_all [progStep, pendingItem] <;> progrest h8 h10
  | installed => constructor <;> simp_all [progStep, pendingItem] <;> progrest h8 h10
  | restoring => constructor <;> simp_all [progStep, pendingItem] <;> progrest h8 h10

theorem progInv_raise (seq : List α) (s : ProgState α) (h : ProgInv seq s) (hr : s.raised = true) : ProgInv seq (progRaise s) := by
  obtain ⟨rest, index, point, inter, tlast, handler, given, printed, raised, closed⟩ := s
  obtain ⟨h1, h2, h3, h4, h5, h6, h7, h8, h9, h10⟩ := h
  have hb : ∀ i v, (i, v) ∈ printed → i < given.length ∨ i = given.length := by
    intro i v hm; rcases h10 i v hm with h | h
    · exact .inl h
    · exact .inr h.1
  simp only at hr
  cases point <;>
    first
    | exact ⟨h1, h2, h3, h4, h5, h6, h7, h8, h9, h10⟩
    | (refine ⟨h1, h2, by simp [progRaise], by simp [progRaise, hr], by simp [progRaise], ?_, by simp [progRaise, hr], h8, h9, ?_⟩
       · simp_all [progRaise]
       · intro i v hm
         rcases hb i v hm with h | h
         · exact .inl h
         · exact .inr ⟨h, by simp [progRaise]⟩)

theorem progInv_signal (seq : List α) (s : ProgState α) (t : Int) (h : ProgInv seq s) : ProgInv seq (progSignal s t) := by
  unfold progSignal
  cases hh : s.handler with
  | previous => exact h
  | ours =>
    have hb := h.before
    have hd := h.during
    have ha := h.after
    rw [hh] at hb hd ha
    simp only
    split
    · refine progInv_raise seq _ ?_ rfl
      exact ⟨h.index, h.isPrefix, h.running, by simp, hb, hd, by simp, h.lines, h.sorted, h.bound⟩
    · exact ⟨h.index, h.isPrefix, h.running, h.finished, hb, hd, ha, h.lines, h.sorted, h.bound⟩

theorem progInv_event (seq : List α) (s : ProgState α) (e : ProgEvent) (h : ProgInv seq s) : ProgInv seq (progEvent s e) := by
  cases e with
  | step => exact progInv_step seq s h
  | signal t => exact progInv_signal seq s t h
  | next =>
    obtain ⟨rest, index, point, inter, tlast, handler, given, printed, raised, closed⟩ := s
    obtain ⟨h1, h2, h3, h4, h5, h6, h7, h8, h9, h10⟩ := h
    cases point <;>
      first
      | exact ⟨h1, h2, h3, h4, h5, h6, h7, h8, h9, h10⟩
      | (constructor <;> simp_all [progEvent, pendingItem] <;> progrest h8 h10)
  | close =>
    obtain ⟨rest, index, point, inter, tlast, handler, given, printed, raised, closed⟩ := s
    obtain ⟨h1, h2, h3, h4, h5, h6, h7, h8, h9, h10⟩ := h
    cases point <;>
      first
      | exact ⟨h1, h2, h3, h4, h5, h6, h7, h8, h9, h10⟩
      | (constructor <;> simp_all [progEvent, pendingItem] <;> progrest h8 h10)

theorem progRun_snoc (seq : List α) (es : List ProgEvent) (e : ProgEvent) : progRun seq (es ++ [e]) = progEvent (progRun seq es) e := by
  simp [progRun]

theorem progRun_append (seq : List α) (es fs : List ProgEvent) : progRun seq (es ++ fs) = fs.foldl progEvent (progRun seq es) := by
  simp [progRun]

theorem progInv_run (seq : List α) (es : List ProgEvent) : ProgInv seq (progRun seq es) := by
  induction es using List.reverseRecOn with
  | nil => exact progInv_init seq
  | append_singleton es e ih => rw [progRun_snoc]; exact progInv_event seq _ e ih

/-- **C75, items.** Whatever the signals and their timing, whatever the consumer does: the items received are the first items of the sequence, in
order; when the iteration ended, and neither an interruption was raised nor the generator dropped, they are all the items. -/
theorem C75_items (seq : List α) (events : List ProgEvent) :
    (progRun seq events).given <+: seq ∧
    ((progRun seq events).point = .ended → (progRun seq events).raised = false → (progRun seq events).closed = false → (progRun seq events).given = seq) :=
  ⟨(progInv_run seq events).isPrefix, fun h => (progInv_run seq events).finished (.inr h)⟩

/-- **C75, handler of the signal.** Nothing changes before the first item is requested. The handler is replaced as long as the consumer is
given items, including while the consumer itself runs. Once ended without interruption (all items given, or generator dropped), the previous handler is back. -/
theorem C75_handler (seq : List α) (events : List ProgEvent) :
    ((progRun seq events).point = .fresh → (progRun seq events).handler = .previous) ∧
    ((progRun seq events).point = .suspended → (progRun seq events).handler = .ours) ∧
    ((progRun seq events).point = .ended → (progRun seq events).raised = false → (progRun seq events).handler = .previous) := by
  have h := progInv_run seq events
  refine ⟨fun hp => (h.before (.inl hp)).1, fun hp => h.during ?_ ?_ ?_, h.after⟩ <;> rw [hp] <;> nofun

/-- **C75, interruption raised while the generator works on an item**, anywhere in its loop: the item is lost for the consumer, the next step leaves the
generator with the previous handler restored. -/
theorem C75_interrupted (seq : List α) (es : List ProgEvent) (t : Int)
    (hp : (progRun seq es).point = .loop ∨ ∃ v, (progRun seq es).point = .check v ∨ (progRun seq es).point = .show v ∨
      (progRun seq es).point = .reset v ∨ (progRun seq es).point = .give v)
    (ht : t - (progRun seq es).tlast < 500) :
    (progRun seq (es ++ [.signal t, .step])).point = .ended ∧ (progRun seq (es ++ [.signal t, .step])).handler = .previous ∧
    (progRun seq (es ++ [.signal t, .step])).raised = true ∧ (progRun seq (es ++ [.signal t, .step])).given = (progRun seq es).given := by
  have h := progInv_run seq es
  have hh : (progRun seq es).handler = .ours := by
    rcases hp with hp | ⟨v, hp | hp | hp | hp⟩ <;> apply h.during <;> rw [hp] <;> nofun
  rw [progRun_append]
  rcases hp with hp | ⟨v, hp | hp | hp | hp⟩ <;> simp [progEvent, progSignal, hh, ht, progRaise, hp, progStep]

/-- **C75, race (finding).** For every sequence, a double signal just after the handler is installed ends the generator without restoring the
previous handler: it stays replaced for the rest of the process. -/
theorem C75_race (seq : List α) : ∃ events, (progRun seq events).point = .ended ∧ (progRun seq events).handler = .ours :=
  ⟨[.next, .step, .signal 1000, .signal 1400], rfl, rfl⟩

theorem progRaise_tlast (s : ProgState α) : (progRaise s).tlast = s.tlast ∧ (progRaise s).raised = s.raised := by
  unfold progRaise; split <;> exact ⟨rfl, rfl⟩

theorem progStep_tlast (s : ProgState α) : (progStep s).tlast = s.tlast ∧ (progStep s).raised = s.raised := by
  unfold progStep
  split <;> try exact ⟨rfl, rfl⟩
  · split <;> exact ⟨rfl, rfl⟩
  · split <;> exact ⟨rfl, rfl⟩

/-- Steps, `next` and `close` do not change the time of the last signal -/
theorem progEvent_tlast (s : ProgState α) (e : ProgEvent) (he : signalTime e = none) :
    (progEvent s e).tlast = s.tlast ∧ (progEvent s e).raised = s.raised := by
  cases e with
  | step => exact progStep_tlast s
  | next => simp only [progEvent]; split <;> exact ⟨rfl, rfl⟩
  | close => simp only [progEvent]; split <;> exact ⟨rfl, rfl⟩
  | signal t => simp [signalTime] at he

/-- The recorded time is zero or the one of a signal; an interruption comes from two signals or from a signal at the epoch -/
theorem raised_run (seq : List α) (es : List ProgEvent) (hpos : ∀ t ∈ signalTimes es, 500 ≤ t) :
    ((progRun seq es).tlast = 0 ∨ (progRun seq es).tlast ∈ signalTimes es) ∧ ((progRun seq es).raised = true → DoubleSignal es) := by
  induction es using List.reverseRecOn with
  | nil => exact ⟨.inl rfl, by simp [progRun]⟩
  | append_singleton es e ih =>
    have hst : signalTimes (es ++ [e]) = signalTimes es ++ (signalTime e).toList := by
      unfold signalTimes; rw [List.filterMap_append]; cases he : signalTime e <;> simp [he]
    have ih := ih (fun t ht => hpos t (by rw [hst]; exact List.mem_append_left _ ht))
    have mono : DoubleSignal es → DoubleSignal (es ++ [e]) := by
      rintro ⟨t1, t2, hs, hd⟩
      exact ⟨t1, t2, by rw [hst]; exact hs.trans (List.sublist_append_left _ _), hd⟩
    rw [progRun_snoc]
    cases e with
    | signal t =>
      simp only [signalTime, Option.toList] at hst
      have ht := hpos t (by rw [hst]; simp)
      simp only [progEvent, progSignal]
      cases hh : (progRun seq es).handler with
      | previous =>
        exact ⟨ih.1.imp_right fun h => by rw [hst]; exact List.mem_append_left _ h, fun h => mono (ih.2 h)⟩
      | ours =>
        simp only
        split
        · rename_i hlt
          refine ⟨?_, fun _ => ?_⟩
          · rw [(progRaise_tlast _).1]; exact ih.1.imp_right fun h => by rw [hst]; exact List.mem_append_left _ h
          · rcases ih.1 with h0 | hm
            · rw [h0] at hlt; omega
            · refine ⟨_, t, ?_, hlt⟩
              rw [hst]
              exact List.Sublist.append (List.singleton_sublist.2 hm) (List.Sublist.refl [t])
        · exact ⟨.inr (by rw [hst]; simp), fun h => mono (ih.2 h)⟩
    | step =>
      have hl := progEvent_tlast (progRun seq es) .step rfl
      rw [hl.1, hl.2]; exact ⟨ih.1.imp_right fun h => by rw [hst]; exact List.mem_append_left _ h, fun h => mono (ih.2 h)⟩
    | next =>
      have hl := progEvent_tlast (progRun seq es) .next rfl
      rw [hl.1, hl.2]; exact ⟨ih.1.imp_right fun h => by rw [hst]; exact List.mem_append_left _ h, fun h => mono (ih.2 h)⟩
    | close =>
      have hl := progEvent_tlast (progRun seq es) .close rfl
      rw [hl.1, hl.2]; exact ⟨ih.1.imp_right fun h => by rw [hst]; exact List.mem_append_left _ h, fun h => mono (ih.2 h)⟩

/-- **C75, a single signal does not interrupt.** On a clock past the epoch, the interruption is raised only if two signals came less than half a second apart. -/
theorem C75_interrupt_only (seq : List α) (events : List ProgEvent) (hpos : ∀ t ∈ signalTimes events, 500 ≤ t)
    (hr : (progRun seq events).raised = true) : DoubleSignal events :=
  (raised_run seq events hpos).2 hr

theorem progSignal_raised (s : ProgState α) (t : Int) (h : s.raised = true) : (progSignal s t).raised = true := by
  unfold progSignal
  split
  · exact h
  · simp only; split
    · rw [(progRaise_tlast _).2]
    · exact h

/-- **C75, a double signal interrupts.** While items are given, two signals in a row less than half a second apart raise the interruption. -/
theorem C75_interrupt (seq : List α) (es : List ProgEvent) (t1 t2 : Int) (hh : (progRun seq es).handler = .ours) (hd : t2 - t1 < 500) :
    (progRun seq (es ++ [.signal t1, .signal t2])).raised = true := by
  rw [progRun_append]
  simp only [List.foldl_cons, List.foldl_nil, progEvent]
  by_cases h1 : t1 - (progRun seq es).tlast < 500
  · apply progSignal_raised
    simp only [progSignal, hh, if_pos h1]
    rw [(progRaise_tlast _).2]
  · simp only [progSignal, hh, if_neg h1, if_pos hd]
    rw [(progRaise_tlast _).2]

/-- Lines, and one to come for a pending signal -/
theorem printed_count (seq : List α) (es : List ProgEvent) :
    (progRun seq es).printed.length +
      (match (progRun seq es).point with | .show _ => 1 | .reset _ => 0 | _ => if (progRun seq es).interrupted then 1 else 0)
      ≤ (signalTimes es).length := by
  induction es using List.reverseRecOn with
  | nil => simp [progRun]
  | append_singleton es e ih =>
    have hst : signalTimes (es ++ [e]) = signalTimes es ++ (signalTime e).toList := by
      unfold signalTimes; rw [List.filterMap_append]; cases he : signalTime e <;> simp [he]
    rw [progRun_snoc, hst, List.length_append]
    generalize progRun seq es = s at *
    obtain ⟨rest, index, point, inter, tlast, handler, given, printed, raised, closed⟩ := s
    cases e with
    | step =>
      cases point <;> cases inter <;> simp_all [progEvent, progStep, signalTime] <;>
        first | omega | (cases rest <;> simp_all)
    | next => cases point <;> cases inter <;> simp_all [progEvent, signalTime] <;> omega
    | close => cases point <;> cases inter <;> simp_all [progEvent, signalTime] <;> omega
    | signal t =>
      cases handler with
      | previous => cases point <;> cases inter <;> simp_all [progEvent, progSignal, signalTime] <;> omega
      | ours =>
        simp only [progEvent, progSignal]
        split <;> cases point <;> cases inter <;> simp_all [progRaise, signalTime] <;> omega

/-- **C75, progress lines.** Each line shows an item of the sequence with its index, an item is shown at most once and in order, and there are no
more lines than signals: none if there is no signal. -/
theorem C75_lines (seq : List α) (events : List ProgEvent) :
    (∀ i v, (i, v) ∈ (progRun seq events).printed → seq[i]? = some v) ∧
    ((progRun seq events).printed.map Prod.fst).Pairwise (· < ·) ∧
    (progRun seq events).printed.length ≤ (signalTimes events).length := by
  have h := progInv_run seq events
  exact ⟨h.lines, h.sorted, by have := printed_count seq events; omega⟩

/-- Steps while the consumer runs change nothing -/
theorem steps_idle (s : ProgState α) (n : Nat) (h : s.point = .suspended ∨ s.point = .ended) :
    (List.replicate n ProgEvent.step).foldl progEvent s = s := by
  induction n with
  | zero => rfl
  | succ n ih =>
    rw [List.replicate_succ, List.foldl_cons]
    have : progEvent s .step = s := by
      simp only [progEvent, progStep]; rcases h with h | h <;> rw [h]
    rw [this]; exact ih

/-- **C75, next item.** From any point where the consumer can ask for an item: if it does, and no signal comes, then after at most 7 steps it is given the item that
follows the ones it has, or the iteration is over and it had all the items. -/
theorem C75_next (seq : List α) (es : List ProgEvent) (n : Nat) (hn : 7 ≤ n)
    (hp : (progRun seq es).point = .fresh ∨ (progRun seq es).point = .suspended) :
    (∃ v, seq[(progRun seq es).given.length]? = some v ∧ (progRun seq (es ++ undisturbed n)).given = (progRun seq es).given ++ [v] ∧
      (progRun seq (es ++ undisturbed n)).point = .suspended) ∨
    ((progRun seq es).given = seq ∧ (progRun seq (es ++ undisturbed n)).given = seq ∧ (progRun seq (es ++ undisturbed n)).point = .ended) := by
  obtain ⟨k, rfl⟩ : ∃ k, n = 7 + k := ⟨n - 7, by omega⟩
  have hI := progInv_run seq es
  have e7 : undisturbed (7 + k) = (undisturbed 7) ++ List.replicate k .step := by
    simp [undisturbed, ← List.replicate_append_replicate]
  have hrun : (progRun seq es).given ++ (progRun seq es).rest = seq := by
    have := hI.running (by rcases hp with h | h <;> rw [h] <;> nofun) (by rcases hp with h | h <;> rw [h] <;> nofun)
    rcases hp with h | h <;> simpa [h, pendingItem] using this
  rw [e7, ← List.append_assoc, progRun_append seq (es ++ undisturbed 7), progRun_append seq es]
  generalize hs : progRun seq es = s at *
  obtain ⟨rest, index, point, inter, tlast, handler, given, printed, raised, closed⟩ := s
  simp only at hrun hp
  cases rest with
  | nil =>
    right
    simp only [List.append_nil] at hrun
    subst hrun
    have : ((undisturbed 7).foldl progEvent
        { rest := [], index, point, interrupted := inter, tlast, handler, given, printed, raised, closed }).point = .ended ∧
        ((undisturbed 7).foldl progEvent
        { rest := [], index, point, interrupted := inter, tlast, handler, given, printed, raised, closed }).given = given := by
      rcases hp with rfl | rfl <;> exact ⟨rfl, rfl⟩
    rw [steps_idle _ _ (.inr this.1)]
    exact ⟨rfl, this.2, this.1⟩
  | cons v vs =>
    left
    refine ⟨v, by rw [← hrun]; simp, ?_⟩
    have : ((undisturbed 7).foldl progEvent
        { rest := v :: vs, index, point, interrupted := inter, tlast, handler, given, printed, raised, closed }).point = .suspended ∧
        ((undisturbed 7).foldl progEvent
        { rest := v :: vs, index, point, interrupted := inter, tlast, handler, given, printed, raised, closed }).given = given ++ [v] := by
      rcases hp with rfl | rfl <;> cases inter <;> exact ⟨rfl, rfl⟩
    rw [steps_idle _ _ (.inl this.1)]
    exact ⟨this.2, this.1⟩

/-- **C75, a signal is answered with the next item.** A signal received while the consumer works on an item (and not within half a second of the previous
one) prints a line for the following item before it is given. Nothing is printed if there is none: a signal during the last item is not answered. -/
theorem C75_answer (seq : List α) (es : List ProgEvent) (t : Int) (n : Nat) (hn : 7 ≤ n)
    (hp : (progRun seq es).point = .suspended) (ht : 500 ≤ t - (progRun seq es).tlast) :
    (progRun seq (es ++ .signal t :: undisturbed n)).printed = (progRun seq es).printed ++
      (match seq[(progRun seq es).given.length]? with
       | some v => [((progRun seq es).given.length, v)]
       | none => []) := by
  obtain ⟨k, rfl⟩ : ∃ k, n = 7 + k := ⟨n - 7, by omega⟩
  have hI := progInv_run seq es
  have e7 : ProgEvent.signal t :: undisturbed (7 + k) = (.signal t :: undisturbed 7) ++ List.replicate k .step := by
    simp [undisturbed, ← List.replicate_append_replicate]
  have hh : (progRun seq es).handler = .ours := by apply hI.during <;> rw [hp] <;> nofun
  have hrun : (progRun seq es).given ++ (progRun seq es).rest = seq := by
    have := hI.running (by rw [hp]; nofun) (by rw [hp]; nofun)
    simpa [hp, pendingItem] using this
  have hidx := hI.index
  rw [e7, ← List.append_assoc, progRun_append seq (es ++ _), progRun_append seq es]
  generalize hs : progRun seq es = s at *
  obtain ⟨rest, index, point, inter, tlast, handler, given, printed, raised, closed⟩ := s
  simp only at hrun hp hh ht hidx
  subst hp hh hidx
  have hsig : ∀ r : List α, progEvent { rest := r, index := given.length, point := .suspended, interrupted := inter, tlast, handler := .ours, given, printed, raised, closed } (.signal t)
      = { rest := r, index := given.length, point := .suspended, interrupted := true, tlast := t, handler := .ours, given, printed, raised, closed } := by
    intro r; simp only [progEvent, progSignal]; rw [if_neg (by omega)]
  rw [List.foldl_cons, hsig]
  cases rest with
  | nil =>
    simp only [List.append_nil] at hrun; subst hrun
    rw [steps_idle _ _ (.inr rfl)]
    simp; rfl
  | cons v vs =>
    rw [steps_idle _ _ (.inl rfl)]
    rw [← hrun]; simp; rfl

/-- **C75, no terminal.** When the standard error is not a terminal, the items are those of the sequence and signals are not handled. -/
theorem C75_plain (seq : List α) (events : List ProgEvent) : progressItems false seq events = seq := rfl

/-- Three items, a signal while the first is processed, then the iteration goes to its end -/
def progSample : List ProgEvent := undisturbed 7 ++ [.signal 5000] ++ undisturbed 7 ++ undisturbed 7 ++ undisturbed 7

/-- **Met.** With the sample: everything is given, one line is printed for the second item, the handler is restored. -/
theorem C75_items_met : (progRun [10, 20, 30] progSample).given = [10, 20, 30] ∧ (progRun [10, 20, 30] progSample).printed = [(1, 20)] ∧
    (progRun [10, 20, 30] progSample).point = .ended ∧ (progRun [10, 20, 30] progSample).handler = .previous ∧
    (progRun [10, 20, 30] progSample).raised = false ∧ (progRun [10, 20, 30] progSample).closed = false := by decide

/-- **Met.** A double signal before the test raises the interruption: one item is lost, the handler is restored. -/
theorem C75_interrupted_met :
    (progRun [10, 20, 30] [.next, .step, .step, .step, .signal 5000]).point = .check 10 ∧
    (5300 : Int) - (progRun [10, 20, 30] [.next, .step, .step, .step, .signal 5000]).tlast < 500 ∧
    (progRun [10, 20, 30] ([.next, .step, .step, .step, .signal 5000] ++ [.signal 5300, .step])).point = .ended := by decide

/-- **Met.** `C75_answer` from the first item -/
theorem C75_answer_met : (progRun [10, 20] (undisturbed 7)).point = .suspended ∧ (500 : Int) ≤ 5000 - (progRun [10, 20] (undisturbed 7)).tlast ∧
    (progRun [10, 20] (undisturbed 7)).handler = .ours := by decide

end Cdtb
