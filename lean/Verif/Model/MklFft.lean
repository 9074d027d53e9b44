import Verif.Model.Arr
import Verif.Model.Prop

/-!
# falco/mkl_fft.py

The Python side of the wrappers `fft2`, `ifft2`, `rfft2`, `irfft2`, `cce2full` and `fftshift`.  The MKL
library itself (not in /repo) is modelled as the exact discrete Fourier transform with the scale factors
it is given; arrays are contiguous (the stride settings are not modelled); rounding is left out.
-/

namespace Verif.MklFft

open Complex

/-- An array with any number of axes: its shape and its entry at each list of indices
(what the function gives outside of the shape has no meaning). -/
structure Nd (α : Type*) where
  shape : List ℕ
  at_ : List ℕ → α

/-- `np.arange(a, b)` for integers. -/
def arange (a b : ℤ) : List ℤ := (List.range (b - a).toNat).map fun i => a + (i : ℕ)

/-- The entry meant by an index of an axis of length `n` (`np.take` with `mode='raise'`: negative ones
count from the end, others out of range raise). -/
def pyIdx (n : ℕ) (i : ℤ) : Option ℕ := if 0 ≤ i ∧ i < n then some i.toNat else if -(n : ℤ) ≤ i ∧ i < 0 then some (i + n).toNat else none

/-- `np.take(y, idx, k)`. -/
def take {α : Type*} (y : Nd α) (idx : List ℤ) (k : ℕ) : Except PyErr (Nd α) :=
  if idx.all fun i => (pyIdx (y.shape.getD k 0) i).isSome then
    .ok ⟨y.shape.set k idx.length, fun ix => y.at_ (ix.set k ((pyIdx (y.shape.getD k 0) (idx.getD (ix.getD k 0) 0)).getD 0))⟩
  else .error .indexError

/-- The variable `p2` of `fftshift` (falco/mkl_fft.py:849-852). -/
def cut (n : ℕ) (extra : ℤ) : ℤ := if ((n : ℤ) + 1) / 2 - extra < n then ((n : ℤ) + 1) / 2 - extra else |extra| - ((n : ℤ) + 1) / 2

/-- The variable `mylist` of `fftshift` (falco/mkl_fft.py:853). -/
def order (n : ℕ) (extra : ℤ) : List ℤ := arange (cut n extra) n ++ arange 0 (cut n extra)

/-- falco/mkl_fft.py:812-855 `fftshift(x, additional_shift, axes)`.  The name `integer_types` of line 839 is
defined nowhere, so any `axes` other than None raises NameError. -/
def fftshift {α : Type*} (x : Nd α) (additional : Option (List ℤ)) (axes : Option (List ℕ)) : Except PyErr (Nd α) :=
  if axes.isSome then .error .nameError
  else ((List.range x.shape.length).zip (additional.getD [0, 0])).foldlM (fun y p => take y (order (x.shape.getD p.1 0) p.2) p.1) x

/-- The argument `norm`. -/
inductive Norm | none | ortho | other
  deriving DecidableEq

/-- falco/mkl_fft.py:323-387 `proper_fft2(a, norm, direction)`: what the argument holds afterwards.  `complex` says
whether its dtype is complex64 or complex128.  MKL's default scale is 1 in both directions; the
`norm` None sets the backward one only.  Arrays without entries are not modelled (ValueError here). -/
noncomputable def properFft2 (complex : Bool) (a : Nd ℂ) (norm : Norm) (forward : Bool) : Except PyErr (Nd ℂ) :=
  if complex = false then .error .valueError
  else match a.shape with
    | [m + 1, n + 1] =>
      let E : ZMod (m + 1) → ZMod (n + 1) → ℂ := fun i j => a.at_ [i.val, j.val]
      let size : ℂ := ((m + 1 : ℕ) : ℂ) * ((n + 1 : ℕ) : ℂ)
      if forward then
        let scale : ℂ := if norm = .ortho then 1 / (Real.sqrt (((m + 1 : ℕ) : ℝ) * ((n + 1 : ℕ) : ℝ)) : ℂ) else 1
        .ok ⟨a.shape, fun ix => scale * Optics.fft2 E ((ix.getD 0 0 : ℕ) : ZMod (m + 1)) ((ix.getD 1 0 : ℕ) : ZMod (n + 1))⟩
      else
        let scale : ℂ := if norm = .ortho then 1 / (Real.sqrt (((m + 1 : ℕ) : ℝ) * ((n + 1 : ℕ) : ℝ)) : ℂ) else if norm = .none then 1 / size else 1
        -- the sum without a factor is `size` times numpy's ifft2
        .ok ⟨a.shape, fun ix => scale * (size * Optics.ifft2 E ((ix.getD 0 0 : ℕ) : ZMod (m + 1)) ((ix.getD 1 0 : ℕ) : ZMod (n + 1)))⟩
    | _ => .error .valueError

/-- falco/mkl_fft.py:708-732 `fft2(a, norm)`: the argument afterwards, and the array returned. -/
noncomputable def fft2 (complex : Bool) (a : Nd ℂ) (norm : Norm) : Except PyErr (Nd ℂ × Nd ℂ) := do
  let a' ← properFft2 complex a norm true
  let y ← fftshift a' none none
  pure (a', y)

/-- falco/mkl_fft.py:733-756 `ifft2(a, norm)`: the argument afterwards, and the array returned. -/
noncomputable def ifft2 (complex : Bool) (a : Nd ℂ) (norm : Norm) : Except PyErr (Nd ℂ × Nd ℂ) := do
  let a' ← properFft2 complex a norm false
  let y ← fftshift a' none none
  pure (a', y)

/-- A 2-D array with `h` rows and `w` columns (entries outside have no meaning). -/
structure Mat (α : Type*) where
  h : ℕ
  w : ℕ
  at_ : ℕ → ℕ → α

/-- What the assignment of `V` to a block of `H` rows and `W` columns puts at each place of the block
(NumPy repeats an axis of length 1; other lengths must agree). -/
def assigned {α : Type*} (H W : ℕ) (V : Mat α) : Except PyErr (ℕ → ℕ → α) :=
  if (V.h = H ∨ V.h = 1) ∧ (V.w = W ∨ V.w = 1) then .ok fun i j => V.at_ (if V.h = 1 then 0 else i) (if V.w = 1 then 0 else j)
  else .error .valueError

/-- falco/mkl_fft.py:479-493 `cce2full(A)`. -/
noncomputable def cce2full (A : Mat ℂ) : Except PyErr (Mat ℂ) := do
  let N := A.h
  let Nh := N / 2 + 1
  -- out[:, :N_half] = A
  let left ← assigned N (min Nh N) A
  -- out[1:, N_half:] = np.rot90(A[1:, 1:-1], 2).conj()
  let right ← assigned (N - 1) (N - Nh) ⟨A.h - 1, A.w - 2, fun i j => starRingEnd ℂ (A.at_ (1 + (A.h - 1 - 1 - i)) (1 + (A.w - 2 - 1 - j)))⟩
  if N = 0 then .error .indexError
  else
    -- out[0, N_half:] = A[0, -2:0:-1].conj()
    let top ← assigned 1 (N - Nh) ⟨1, A.w - 2, fun _ j => starRingEnd ℂ (A.at_ 0 (A.w - 2 - j))⟩
    .ok ⟨N, N, fun i j => if j < Nh then left i j else if i = 0 then top 0 (j - Nh) else right (i - 1) (j - Nh)⟩

/-- The kinds of arrays told apart by `mkl_rfft2`. -/
inductive Dtype | real | complex
  deriving DecidableEq

/-- The failed `assert` of falco/mkl_fft.py:508. -/
inductive Failed | assertion
  deriving DecidableEq

/-- falco/mkl_fft.py:495-562 and 758-783 `rfft2(a, norm)` of an array with `m+1` rows and `n+1` columns: dtype and entries of
the result.  `mkl_rfft2` is called with `norm=None`, whatever is given. -/
noncomputable def rfft2 {m n : ℕ} (d : Dtype) (a : ZMod (m + 1) → ZMod (n + 1) → ℝ) (_norm : Norm) : Except Failed (Dtype × Mat ℂ) :=
  if d = .real then .ok (.complex, ⟨m + 1, (n + 1) / 2 + 1, fun i j => Optics.fft2 (fun k l => (a k l : ℂ)) (i : ZMod (m + 1)) (j : ZMod (n + 1))⟩)
  else .error .assertion

/-- falco/mkl_fft.py:785-810 `irfft2(a, norm)`: only the assertion on the dtype is modelled (for a real array MKL would read
the memory as if it were complex). -/
def irfft2 {α : Type*} (a : Dtype × Mat α) (_norm : Norm) : Except Failed Unit :=
  if a.1 = .real then .ok () else .error .assertion

end Verif.MklFft
