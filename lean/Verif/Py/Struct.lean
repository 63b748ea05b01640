import Verif.Py.Basic
/-!
# Binary files: `BinaryParser` (cdtb/tools.py:55-82) and `struct`

A file opened for reading is its content and a position. `Rd α` is a computation that reads from it.
The position after an exception is not modelled (all the modelled code lets exceptions go through
without reading again).
-/
namespace Cdtb
set_option autoImplicit false

/-- Reading computation -/
def Rd (α : Type) := Bytes → Nat → Except Err (α × Nat)

namespace Rd
variable {α β : Type}

instance : Monad Rd where
  pure a := fun _ pos => .ok (a, pos)
  bind p f := fun data pos => match p data pos with
    | .error e => .error e
    | .ok (a, pos') => f a data pos'

/-- `raise` -/
def fail (e : Err) : Rd α := fun _ _ => .error e

/-- `f.read(n)`: at most `n` bytes, fewer at the end of the file (cdtb/tools.py:77-78) -/
def raw (n : Nat) : Rd Bytes := fun data pos =>
  let b := (data.drop pos).take n
  .ok (b, pos + b.length)

/-- `f.read()`: everything up to the end -/
def rest : Rd Bytes := fun data pos =>
  let b := data.drop pos
  .ok (b, pos + b.length)

/-- `struct.unpack("<ns", f.read(n))`: exactly `n` bytes, or `struct.error` (cdtb/tools.py:73-75) -/
def exact (n : Nat) : Rd Bytes := fun data pos =>
  if pos + n ≤ data.length then .ok ((data.drop pos).take n, pos + n) else .error .struct

/-- `f.tell()` (cdtb/tools.py:61-62) -/
def tell : Rd Nat := fun _ pos => .ok (pos, pos)
/-- `f.seek(position, 0)` (cdtb/tools.py:64-65) -/
def seek (p : Nat) : Rd Unit := fun _ _ => .ok ((), p)
/-- `f.seek(amount, 1)` (cdtb/tools.py:67-71): a negative position raises `OSError` -/
def skip (amount : Int) : Rd Unit := fun _ pos =>
  if 0 ≤ (pos : Int) + amount then .ok ((), ((pos : Int) + amount).toNat) else .error (.os 22)

/-- `[p() for _ in range(n)]` -/
def times (p : Rd α) : Nat → Rd (List α)
  | 0 => pure []
  | n + 1 => do
    let a ← p
    let as ← times p n
    pure (a :: as)

/-- A plain exception-raising computation. -/
def lift (r : Res α) : Rd α := fun _ pos => match r with
  | .ok a => .ok (a, pos)
  | .error e => .error e

/-- Running on a whole file, from its start. -/
def run (p : Rd α) (data : Bytes) : Res α :=
  match p data 0 with
  | .ok (a, _) => .ok a
  | .error e => .error e

end Rd

/-- Little-endian value of a byte string. -/
def leNat : Bytes → Nat
  | [] => 0
  | b :: bs => b.toNat + 256 * leNat bs

/-- Two's complement value of a byte string. -/
def leInt (bs : Bytes) : Int :=
  if leNat bs < 256 ^ bs.length / 2 then (leNat bs : Int) else (leNat bs : Int) - (256 ^ bs.length : Nat)

namespace Rd
/-- `<B`, `<H`, `<I`/`<L`, `<Q`: unsigned integer of `w` bytes -/
def u (w : Nat) : Rd Nat := do
  let b ← exact w
  pure (leNat b)
/-- `<b`, `<h`, `<i`/`<l`, `<q`: signed integer of `w` bytes -/
def i (w : Nat) : Rd Int := do
  let b ← exact w
  pure (leInt b)
/-- `<?` -/
def bool : Rd Bool := do
  let n ← u 1
  pure (n ≠ 0)
end Rd

/-! ## Layout of integers (specification side) -/

/-- Little-endian representation of `n` on `w` bytes. -/
def le : Nat → Nat → Bytes
  | 0, _ => []
  | w + 1, n => UInt8.ofNat (n % 256) :: le w (n / 256)

/-- Two's complement representation of `n` on `w` bytes. -/
def leI (w : Nat) (n : Int) : Bytes := le w (n % (256 ^ w : Nat)).toNat

end Cdtb
