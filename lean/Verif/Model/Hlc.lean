import Verif.Model.Setup
import Mathlib.Analysis.SpecialFunctions.Trigonometric.Basic

/-! # Model of HLC mask lookup (falco/hlc.py, falco/thinfilm.py:421-547, falco/model/models.py:105-125) and segmented mirrors (falco/hexsegmirror.py) -/

namespace Verif.Hlc
open Verif Verif.Setup

/-- `a[i]` on an axis of length `n`: negative indices count from the end. -/
def pyIndex (n : ℕ) (i : ℤ) : Except PyErr ℕ :=
  if 0 ≤ i ∧ i < n then .ok i.toNat else if -(n : ℤ) ≤ i ∧ i < 0 then .ok (i + n).toNat else .error .indexError

/-! ## Thickness lookup -/

/-- The thickness table of a layer: `t_nm_vec` (length `n`) and `dt_nm`. -/
structure Layer where
  n : ℕ
  pos : 0 < n
  t : ℕ → ℝ
  dt : ℝ

/-- `np.min(t_nm_vec)` -/
noncomputable def Layer.min (L : Layer) : ℝ := (Finset.range L.n).inf' ⟨0, Finset.mem_range.2 L.pos⟩ L.t
/-- `np.max(t_nm_vec)` -/
noncomputable def Layer.max (L : Layer) : ℝ := (Finset.range L.n).sup' ⟨0, Finset.mem_range.2 L.pos⟩ L.t

/-- falco/hlc.py:149-180 `discretize_fpm_surf` at one pixel. -/
noncomputable def discretize (L : Layer) (surf : ℝ) : ℤ :=
  let s := 10 ^ 9 * surf
  let s := if s < L.min then L.min else s
  let s := if s > L.max then L.max else s
  Dm.npRound (1 / L.dt * (s - L.min))

/-- falco/hlc.py:73-79 at one pixel: `complexTransCube[ind_diel, ind_metal, ilam]` for a table with `nLam` slices. -/
noncomputable def lookup (diel metal : Layer) (nLam : ℕ) (cube : ℕ → ℕ → ℕ → ℂ) (dm8 dm9 : ℝ) (ilam : ℤ) : Except PyErr ℂ := do
  let i ← pyIndex diel.n (discretize diel dm9)
  let j ← pyIndex metal.n (discretize metal dm8)
  let k ← pyIndex nLam ilam
  pure (cube i j k)

/-! ## Wavelength index -/

/-- falco/thinfilm.py:517-541: the number of slices of the table for the full model, and the wavelength of slice `li` (`none`: the slice keeps its initial
zeros). With one wavelength per sub-band the table is the one of the compact model, computed for the sub-band centres (490-494). -/
noncomputable def tableLen (b : Band) : ℕ := if b.Nwpsbp = 1 then b.Nsbp else b.Nsbp * b.Nwpsbp
noncomputable def tableWvl (b : Band) (li : ℕ) : Option ℝ :=
  if b.Nwpsbp = 1 then (sbpCenters b)[li]? else (uniqueLambdas (lambdasFlat b))[li]?

/-- falco/hlc.py:49: the slice read for the full model. -/
def lutIndex (b : Band) (si wi : ℕ) : ℤ := ((si : ℤ) - 1) * b.Nwpsbp + wi

/-- The wavelength of the slice that `gen_fpm_from_LUT(mp, si, wi, 'full')` reads. -/
noncomputable def lutWvl (b : Band) (si wi : ℕ) : Except PyErr (Option ℝ) := (pyIndex (tableLen b) (lutIndex b si wi)).map (tableWvl b)

/-- falco/model/models.py:105-115: `ilam`, the slice of `mp.full.fpmCube` used by the full model. -/
def cubeIndex (b : Band) (si wi : ℕ) : ℤ :=
  if 1 < b.Nsbp ∧ 1 < b.Nwpsbp then ((si : ℤ) - 2) * b.Nwpsbp + wi + (b.Nsbp - si + 1)
  else if b.Nsbp = 1 ∧ 1 < b.Nwpsbp then wi else si

/-! ## Segmented mirror (falco/hexsegmirror.py) -/

/-- falco/hexsegmirror.py:192-194: the step along face `face` as (row, column). -/
noncomputable def step (hexSep : ℝ) (face : ℕ) : ℝ × ℝ :=
  (hexSep * Real.sin (Real.pi / 6 * (2 * face + 5)), hexSep * Real.cos (Real.pi / 6 * (2 * face + 5)))

/-- falco/hexsegmirror.py:196-208: the `while` loop over the steps of a face, from centre `cen`; returns the final centre and the centres visited (a
`while` loop counting `stepnum` from 1 to `ringNum`, as recursion on the number of steps left). -/
noncomputable def faceLoop (hexSep : ℝ) (face ringNum : ℕ) : ℕ → ℕ → ℝ × ℝ → (ℝ × ℝ) × List (ℝ × ℝ)
  | 0, _, cen => (cen, [])
  | left + 1, stepnum, cen =>
    let cen := (cen.1 + (step hexSep face).1, cen.2 + (step hexSep face).2)
    let (last, vs) := faceLoop hexSep face ringNum left (stepnum + 1) cen
    (last, if face = 6 ∧ stepnum = ringNum then vs else cen :: vs)

/-- falco/hexsegmirror.py:190-208: faces `face, face+1, ...` of a ring (`left` of them). -/
noncomputable def facesLoop (hexSep : ℝ) (ringNum : ℕ) : ℕ → ℕ → ℝ × ℝ → List (ℝ × ℝ)
  | 0, _, _ => []
  | left + 1, face, cen =>
    let (last, vs) := faceLoop hexSep face ringNum ringNum 1 cen
    vs ++ facesLoop hexSep ringNum left (face + 1) last

/-- falco/hexsegmirror.py:174-208: the centres of the segments in the order visited, without `offset`; the position in this list is the index into
`missingSegments`. `get_field` (112-143) visits the same centres. -/
noncomputable def visits (hexSep : ℝ) (numRings : ℕ) : List (ℝ × ℝ) :=
  (List.range (numRings + 1)).flatMap fun (r : ℕ) => (r * hexSep, 0) :: facesLoop hexSep r 6 1 (r * hexSep, 0)

/-- falco/hexsegmirror.py:213-236 `count_segments`. -/
def countSegments (numRings : ℕ) : ℕ :=
  (List.range (numRings + 1)).foldl (fun n ringNum =>
    (List.range' 1 6).foldl (fun n face => (List.range' 1 ringNum).foldl (fun n stepnum => if face = 6 ∧ stepnum = ringNum then n else n + 1) n) (n + 1)) 0

/-- The loops of `get_support` (`wanted = 1`, lines 185-207) and `get_field` (`wanted = 0`, lines 118-142): the centres that are drawn. -/
noncomputable def drawn (wanted : ℕ) (missing : List ℕ) : ℕ → List (ℝ × ℝ) → Except PyErr (List (ℝ × ℝ))
  | _, [] => .ok []
  | count, c :: cs =>
    match missing[count]? with
    | none => .error .indexError
    | some m => do
      let rest ← drawn wanted missing (count + 1) cs
      pure (if m = wanted then c :: rest else rest)

/-- Both functions default to `np.ones(count_segments(numRings))` (lines 164-167 and 101-104). -/
noncomputable def support (hexSep : ℝ) (numRings : ℕ) (missing : Option (List ℕ)) : Except PyErr (List (ℝ × ℝ)) :=
  drawn 1 (missing.getD (List.replicate (countSegments numRings) 1)) 0 (visits hexSep numRings)
noncomputable def field (hexSep : ℝ) (numRings : ℕ) (missing : Option (List ℕ)) : Except PyErr (List (ℝ × ℝ)) :=
  drawn 0 (missing.getD (List.replicate (countSegments numRings) 1)) 0 (visits hexSep numRings)

end Verif.Hlc
