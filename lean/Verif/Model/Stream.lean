import Verif.Py.Basic
/-!
# Model of cdtb/storage.py, `RequestStreamReader` (lines 99-129)
-/
namespace Cdtb
set_option autoImplicit false

/-- Reader state: the chunks the iterator has not produced yet (`it`), `pos`, `buf`
(cdtb/storage.py:104-107). -/
structure StreamReader where
  chunks : List Bytes
  pos : Nat
  buf : Bytes
deriving DecidableEq, Repr

/-- `RequestStreamReader.__init__`: cdtb/storage.py:104-107 -/
def StreamReader.init (chunks : List Bytes) : StreamReader := ⟨chunks, 0, []⟩

/-- Result of the copy loop: the successive arguments of `writer`, the outcome, and the state left. -/
structure CopyOut where
  written : List Bytes
  res : Res Unit
  buf : Bytes
  chunks : List Bytes

/-- The `while n` loop of `copy`: cdtb/storage.py:112-121. `next(self.it)` raises `StopIteration`
when the response is exhausted. -/
def copyLoop (n : Nat) (buf : Bytes) (chunks : List Bytes) : CopyOut :=
  if n = 0 then ⟨[], .ok (), buf, chunks⟩
  else if n ≤ buf.length then ⟨[buf.take n], .ok (), buf.drop n, chunks⟩
  else match chunks with
    | [] => ⟨if buf.isEmpty then [] else [buf], .error .stopIteration, buf, []⟩
    | c :: cs =>
      let r := copyLoop (n - buf.length) c cs
      { r with written := (if buf.isEmpty then [] else [buf]) ++ r.written }

/-- `copy(writer, n)`: cdtb/storage.py:109-121. Returns the successive calls of `writer`. -/
def StreamReader.copy (r : StreamReader) (n : Nat) : List Bytes × Res Unit × StreamReader :=
  let o := copyLoop n r.buf r.chunks
  (o.written, o.res, ⟨o.chunks, r.pos + n, o.buf⟩)

/-- `skip(n)`: cdtb/storage.py:123-125 (no writer: nothing is written) -/
def StreamReader.skip (r : StreamReader) (n : Nat) : Res Unit × StreamReader :=
  let o := copyLoop n r.buf r.chunks
  (o.res, ⟨o.chunks, r.pos + n, o.buf⟩)

/-- `skip_to(pos)`: cdtb/storage.py:127-129 -/
def StreamReader.skipTo (r : StreamReader) (p : Nat) : Res Unit × StreamReader :=
  if r.pos ≤ p then r.skip (p - r.pos) else (.error .assertion, r)

/-- One call on a reader, for sequences of calls. -/
inductive StreamOp where
  | copy (n : Nat)
  | skip (n : Nat)
  | skipTo (p : Nat)
deriving DecidableEq, Repr

/-- One call: data given to the writer (concatenated), outcome, reader left. -/
def StreamReader.call (r : StreamReader) : StreamOp → Bytes × Res Unit × StreamReader
  | .copy n => let (w, o, r') := r.copy n; (w.flatten, o, r')
  | .skip n => let (o, r') := r.skip n; ([], o, r')
  | .skipTo p => let (o, r') := r.skipTo p; ([], o, r')

/-- A sequence of calls, up to the first exception: the data written by each successful call, and
the outcome. -/
def StreamReader.run (r : StreamReader) : List StreamOp → List Bytes × Res Nat
  | [] => ([], .ok r.pos)
  | op :: ops =>
    let (w, o, r') := r.call op
    match o with
    | .error e => ([], .error e)
    | .ok () =>
      let (ws, o') := r'.run ops
      (w :: ws, o')

end Cdtb
