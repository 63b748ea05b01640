import Verif.Py.Basic
/-!
# Model of iteration with progress on SIGINT (cdtb/hashes.py:128-168)

The generator runs step by step. Signals can be delivered between any two steps, while the generator runs or while the consumer does (the
generator is then suspended). Times are in milliseconds.
-/
namespace Cdtb
set_option autoImplicit false

/-- What handles SIGINT: what was there before, or the function `signal_handler` of this generator (cdtb/hashes.py:133-139) -/
inductive SigHandler where
  | previous
  | ours
deriving DecidableEq, Repr

/-- Where the generator is -/
inductive ProgPoint (α : Type) where
  /-- nothing has been executed (generators start at the first `next`) -/
  | fresh
  /-- before the call that installs the handler (cdtb/hashes.py:141) -/
  | entering
  /-- the handler is installed, the `try` block is not entered (cdtb/hashes.py:141-142) -/
  | installed
  /-- at the head of the loop (cdtb/hashes.py:158) -/
  | loop
  /-- at the test of `interrupted` (cdtb/hashes.py:159), with the item -/
  | check (v : α)
  /-- before the print (cdtb/hashes.py:160) -/
  | show (v : α)
  /-- before the reset of `interrupted` (cdtb/hashes.py:161) -/
  | reset (v : α)
  /-- before `yield` (cdtb/hashes.py:162) -/
  | give (v : α)
  /-- at `yield`: the consumer runs -/
  | suspended
  /-- in the `finally` block, before the call that restores the handler (cdtb/hashes.py:144-145) -/
  | restoring
  /-- ended: all the items are given, or an exception, or the generator is closed -/
  | ended
deriving DecidableEq, Repr

/-- State of the generator, of the variables of its closures, and of the process. `given` are the items received by the consumer, `printed` the
index and the item of progress lines, `raised` tells if `KeyboardInterrupt` has been raised, `closed` if the consumer dropped the generator. -/
structure ProgState (α : Type) where
  rest : List α
  index : Nat := 0
  point : ProgPoint α := .fresh
  interrupted : Bool := false
  tlast : Int := 0
  handler : SigHandler := .previous
  given : List α := []
  printed : List (Nat × α) := []
  raised : Bool := false
  closed : Bool := false

/-- What happens: the generator executes a step, the consumer calls `next` or drops the generator, or a signal arrives at some time. -/
inductive ProgEvent where
  | step
  | next
  | close
  | signal (time : Int)

/-- One step of the generator: cdtb/hashes.py:141-145, 157-162 -/
def progStep {α : Type} (s : ProgState α) : ProgState α := match s.point with
  | .fresh => s
  | .entering => { s with handler := .ours, point := .installed }
  | .installed => { s with point := .loop }
  | .loop => match s.rest with
    | [] => { s with point := .restoring }
    | v :: vs => { s with rest := vs, point := .check v }
  | .check v => if s.interrupted then { s with point := .show v } else { s with point := .give v }
  | .show v => { s with printed := s.printed ++ [(s.index, v)], point := .reset v }
  | .reset v => { s with interrupted := false, point := .give v }
  | .give v => { s with given := s.given ++ [v], index := s.index + 1, point := .suspended }
  | .suspended => s
  | .restoring => { s with handler := .previous, point := .ended }
  | .ended => s

/-- Where an exception goes: out of the generator before the `try` block and in the `finally` block, otherwise to the `finally` block
(cdtb/hashes.py:141-145). When the consumer runs, it gets the exception, and drops the generator (`close`) if it does not catch it. -/
def progRaise {α : Type} (s : ProgState α) : ProgState α := match s.point with
  | .fresh => s
  | .entering => { s with point := .ended }
  | .installed => { s with point := .ended }
  | .suspended => s
  | .restoring => { s with point := .ended }
  | .ended => s
  | _ => { s with point := .restoring }

/-- `signal_handler` and `handler` (cdtb/hashes.py:133-139, 154-156), if it is the handler; signals handled by the previous handler are not modelled. -/
def progSignal {α : Type} (s : ProgState α) (t : Int) : ProgState α := match s.handler with
  | .previous => s
  | .ours =>
    let s1 := { s with interrupted := true }
    if t - s1.tlast < 500 then progRaise { s1 with raised := true } else { s1 with tlast := t }

/-- `progress_iterate`: cdtb/hashes.py:147-162 -/
def progEvent {α : Type} (s : ProgState α) : ProgEvent → ProgState α
  | .step => progStep s
  | .next => match s.point with
    | .fresh => { s with point := .entering }
    | .suspended => { s with point := .loop }
    | _ => s
  | .close => match s.point with
    | .fresh => { s with point := .ended, closed := true }
    | .suspended => { s with point := .restoring, closed := true }
    | _ => s
  | .signal t => progSignal s t

/-- A schedule, from the creation of the generator: cdtb/hashes.py:147-162 -/
def progRun {α : Type} (seq : List α) (events : List ProgEvent) : ProgState α := events.foldl progEvent { rest := seq }

/-- `progress_iterator`: cdtb/hashes.py:164-168; the sequence itself when the standard error is not a terminal. -/
def progressItems {α : Type} (isatty : Bool) (seq : List α) (events : List ProgEvent) : List α :=
  if isatty then (progRun seq events).given else seq

end Cdtb
