import Verif.Model.Stream
/-! Specification for C03: reading a flat byte string held in memory. Only the type of call names
(`StreamOp`) comes from the model. -/
namespace Cdtb.Spec
set_option autoImplicit false

/-- Calls on a flat string `data` at position `pos`. -/
def flatRun (data : Bytes) (pos : Nat) : List StreamOp → List Bytes × Res Nat
  | [] => ([], .ok pos)
  | .copy n :: ops =>
    if pos + n ≤ data.length then
      let (ws, o) := flatRun data (pos + n) ops
      ((data.drop pos).take n :: ws, o)
    else ([], .error .stopIteration)
  | .skip n :: ops =>
    if pos + n ≤ data.length then
      let (ws, o) := flatRun data (pos + n) ops
      ([] :: ws, o)
    else ([], .error .stopIteration)
  | .skipTo p :: ops =>
    if p < pos then ([], .error .assertion)
    else if p ≤ data.length then
      let (ws, o) := flatRun data p ops
      ([] :: ws, o)
    else ([], .error .stopIteration)

end Cdtb.Spec
