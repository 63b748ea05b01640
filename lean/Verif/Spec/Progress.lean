import Verif.Model.Progress
/-!
# Specification of iteration with progress on SIGINT: what the schedule says
-/
namespace Cdtb.Spec
set_option autoImplicit false

/-- The time of a signal, if the event is one -/
def signalTime : ProgEvent → Option Int
  | .signal t => some t
  | _ => none

/-- Times of the signals of a schedule, in order -/
def signalTimes (events : List ProgEvent) : List Int := events.filterMap signalTime

/-- Two signals of the schedule, the second one less than half a second after the first -/
def DoubleSignal (events : List ProgEvent) : Prop :=
  ∃ t1 t2 : Int, List.Sublist [t1, t2] (signalTimes events) ∧ t2 - t1 < 500

/-- The consumer calls `next`, then the generator runs undisturbed for `n` steps -/
def undisturbed (n : Nat) : List ProgEvent := .next :: List.replicate n .step

end Cdtb.Spec
