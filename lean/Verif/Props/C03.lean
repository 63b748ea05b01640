import Verif.Model.Stream
import Verif.Spec.FlatStream
import Mathlib.Data.List.Basic
/-!
# C03  Streaming reads do not depend on how the network chunks the data
-/
namespace Cdtb
set_option autoImplicit false

theorem copyLoop_spec (n : Nat) (buf : Bytes) (chunks : List Bytes) :
    let o := copyLoop n buf chunks
    (n ≤ (buf ++ chunks.flatten).length →
      o.res = .ok () ∧ o.written.flatten = (buf ++ chunks.flatten).take n ∧
      o.buf ++ o.chunks.flatten = (buf ++ chunks.flatten).drop n) ∧
    ((buf ++ chunks.flatten).length < n →
      o.res = .error .stopIteration ∧ o.written.flatten = buf ++ chunks.flatten) := by
  induction chunks generalizing n buf with
  | nil =>
    unfold copyLoop
    by_cases h0 : n = 0
    · simp [h0]
    · by_cases h1 : n ≤ buf.length
      · simp only [h0, h1, if_true, if_false]
        refine ⟨fun _ => by simp, fun h => ?_⟩
        simp at h; omega
      · simp only [h0, h1, if_false]
        refine ⟨fun h => ?_, fun _ => ⟨by simp, ?_⟩⟩
        · simp at h; omega
        · cases buf <;> simp
  | cons c cs ih =>
    unfold copyLoop
    by_cases h0 : n = 0
    · simp [h0]
    · by_cases h1 : n ≤ buf.length
      · simp only [h0, h1, if_true, if_false]
        refine ⟨fun _ => ⟨by simp, ?_, ?_⟩, fun h => ?_⟩
        · simp [List.take_append, Nat.sub_eq_zero_of_le h1]
        · simp [List.drop_append, Nat.sub_eq_zero_of_le h1]
        · simp at h; omega
      · simp only [h0, h1, if_false]
        have ih' := ih (n - buf.length) c
        simp only at ih'
        have hb : (if buf.isEmpty then [] else [buf]).flatten = buf := by cases buf <;> simp
        refine ⟨fun h => ?_, fun h => ?_⟩
        · obtain ⟨h2, h3, h4⟩ := ih'.1 (by simp at h ⊢; omega)
          refine ⟨h2, ?_, ?_⟩
          · rw [List.flatten_append, hb, h3]
            rw [List.take_append (l₁ := buf), List.take_of_length_le (l := buf) (by omega)]; simp
          · rw [h4, List.drop_append (l₁ := buf), List.drop_eq_nil_of_le (as := buf) (by omega)]; simp
        · obtain ⟨h2, h3⟩ := ih'.2 (by simp at h ⊢; omega)
          refine ⟨h2, ?_⟩
          rw [List.flatten_append, hb, h3]; simp

theorem run_eq_flatRun (data : Bytes) (ops : List StreamOp) (r : StreamReader) (hp : r.pos ≤ data.length)
    (hr : r.buf ++ r.chunks.flatten = data.drop r.pos) : r.run ops = Spec.flatRun data r.pos ops := by
  induction ops generalizing r with
  | nil => rfl
  | cons op ops ih =>
    have key : ∀ n, r.pos + n ≤ data.length →
        let o := copyLoop n r.buf r.chunks
        o.res = .ok () ∧ o.written.flatten = (data.drop r.pos).take n ∧
        o.buf ++ o.chunks.flatten = data.drop (r.pos + n) := by
      intro n hn
      have := (copyLoop_spec n r.buf r.chunks).1 (by rw [hr, List.length_drop]; omega)
      rw [hr, List.drop_drop] at this
      exact this
    have key2 : ∀ n, ¬ r.pos + n ≤ data.length → (copyLoop n r.buf r.chunks).res = .error .stopIteration := by
      intro n hn
      exact ((copyLoop_spec n r.buf r.chunks).2 (by rw [hr, List.length_drop]; omega)).1
    cases op with
    | copy n =>
      by_cases hn : r.pos + n ≤ data.length
      · obtain ⟨h1, h2, h3⟩ := key n hn
        have := ih ⟨(copyLoop n r.buf r.chunks).chunks, r.pos + n, (copyLoop n r.buf r.chunks).buf⟩ hn h3
        simp only [StreamReader.run, StreamReader.call, StreamReader.copy, Spec.flatRun, hn, if_true, h1, h2, this]
      · simp [StreamReader.run, StreamReader.call, StreamReader.copy, Spec.flatRun, hn, key2 n hn]
    | skip n =>
      by_cases hn : r.pos + n ≤ data.length
      · obtain ⟨h1, h2, h3⟩ := key n hn
        have := ih ⟨(copyLoop n r.buf r.chunks).chunks, r.pos + n, (copyLoop n r.buf r.chunks).buf⟩ hn h3
        simp only [StreamReader.run, StreamReader.call, StreamReader.skip, Spec.flatRun, hn, if_true, h1, this]
      · simp [StreamReader.run, StreamReader.call, StreamReader.skip, Spec.flatRun, hn, key2 n hn]
    | skipTo p =>
      by_cases hlt : p < r.pos
      · simp [StreamReader.run, StreamReader.call, StreamReader.skipTo, Spec.flatRun, hlt, Nat.not_le.2 hlt]
      · have hle : r.pos ≤ p := by omega
        have hpe : r.pos + (p - r.pos) = p := by omega
        by_cases hn : p ≤ data.length
        · obtain ⟨h1, h2, h3⟩ := key (p - r.pos) (by omega)
          have := ih ⟨(copyLoop (p - r.pos) r.buf r.chunks).chunks, r.pos + (p - r.pos),
            (copyLoop (p - r.pos) r.buf r.chunks).buf⟩ (by simp; omega) h3
          simp only [hpe] at this
          simp only [StreamReader.run, StreamReader.call, StreamReader.skipTo, hle, StreamReader.skip,
            Spec.flatRun, hlt, hn, if_true, if_false, h1, this, hpe]
        · have := key2 (p - r.pos) (by omega)
          simp [StreamReader.run, StreamReader.call, StreamReader.skipTo, hle, StreamReader.skip,
            Spec.flatRun, hlt, hn, this]

/-- Any sequence of reads and skips on a response delivered in the chunks `cs` (in any number and of
any size, possibly empty) behaves as on the flat content: same data for every call, same final
position, same exception. -/
theorem C03_refines_flat (cs : List Bytes) (ops : List StreamOp) :
    (StreamReader.init cs).run ops = Spec.flatRun cs.flatten 0 ops :=
  run_eq_flatRun cs.flatten ops (.init cs) (by simp [StreamReader.init]) (by simp [StreamReader.init])

/-- The result does not depend on the chunking. -/
theorem C03_chunking_irrelevant (cs cs' : List Bytes) (h : cs.flatten = cs'.flatten) (ops : List StreamOp) :
    (StreamReader.init cs).run ops = (StreamReader.init cs').run ops := by
  rw [C03_refines_flat, C03_refines_flat, h]

/-- Skipping to `p` then reading `n` bytes yields `data[p:p+n]`. -/
theorem C03_skip_read (cs : List Bytes) (p n : Nat) (h : p + n ≤ cs.flatten.length) :
    (StreamReader.init cs).run [.skipTo p, .copy n] =
      ([[], (cs.flatten.drop p).take n], .ok (p + n)) := by
  rw [C03_refines_flat]
  have : p ≤ cs.flatten.length := by omega
  simp only [Spec.flatRun, Nat.not_lt_zero, if_false, this, if_true, h]

/-- After any successful calls leaving the reader at position `p`: reading more than what remains
raises, and so does going backwards. -/
theorem C03_short_and_backwards (cs : List Bytes) (ops : List StreamOp) (ws : List Bytes) (p : Nat)
    (h : (StreamReader.init cs).run ops = (ws, .ok p)) :
    (∀ n, cs.flatten.length < p + n →
      (StreamReader.init cs).run (ops ++ [.copy n]) = (ws, .error .stopIteration)) ∧
    (∀ q, q < p → (StreamReader.init cs).run (ops ++ [.skipTo q]) = (ws, .error .assertion)) := by
  rw [C03_refines_flat] at h
  have aux : ∀ (tail : List StreamOp) (e : Err) (ops : List StreamOp) (pos : Nat) (ws : List Bytes),
      Spec.flatRun cs.flatten p tail = ([], .error e) →
      Spec.flatRun cs.flatten pos ops = (ws, .ok p) →
      Spec.flatRun cs.flatten pos (ops ++ tail) = (ws, .error e) := by
    intro tail e ops
    induction ops with
    | nil =>
      intro pos ws ht ho
      simp [Spec.flatRun] at ho
      obtain ⟨rfl, rfl⟩ := ho
      simpa using ht
    | cons op ops ih =>
      intro pos ws ht ho
      have step : ∀ (x : Bytes) (pos' : Nat),
          (x :: (Spec.flatRun cs.flatten pos' ops).1, (Spec.flatRun cs.flatten pos' ops).2) = (ws, Except.ok p) →
          (x :: (Spec.flatRun cs.flatten pos' (ops ++ tail)).1, (Spec.flatRun cs.flatten pos' (ops ++ tail)).2)
            = (ws, Except.error e) := by
        intro x pos' hh
        simp only [Prod.mk.injEq] at hh
        rw [ih pos' _ ht (Prod.ext rfl hh.2)]
        simp [hh.1]
      cases op <;> simp only [Spec.flatRun, List.cons_append] at ho ⊢ <;> split at ho <;> rename_i hc <;>
        simp only [hc, if_true, if_false] at ho ⊢
      · exact step _ _ ho
      · simp at ho
      · exact step _ _ ho
      · simp at ho
      · simp at ho
      · split at ho <;> rename_i hc2
        · simp only [hc2, if_true]; exact step _ _ ho
        · simp at ho
  refine ⟨fun n hn => ?_, fun q hq => ?_⟩ <;> rw [C03_refines_flat] <;> refine aux _ _ _ _ _ ?_ h
  · simp only [Spec.flatRun]; rw [if_neg (by omega)]
  · simp only [Spec.flatRun]; rw [if_pos hq]

/-! Non-vacuity -/
example : (StreamReader.init [[1, 2], [], [3], [4, 5, 6]]).run [.copy 1, .skipTo 2, .copy 3] =
    ([[1], [], [3, 4, 5]], .ok 5) := by decide +kernel
example : [[1, 2], [], [3], [4, 5, 6]].flatten = [[1], [2, 3, 4, 5, 6]].flatten := by decide

end Cdtb
