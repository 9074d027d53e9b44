import Verif.Model.Proper

/-!
# Model of the table of a prescription (falco/proper/prop_run.py `TABLE`, prop_begin.py, prop_lens.py, prop_propagate.py, prop_table.py)

The six lists of the package are one list of rows. Several wavefronts can live at once, under numbers; all of them are on the grid `n`. The formats of the numbers and the heading of the
printed table are left out; a line is the tuple of what is printed. A prescription does not catch exceptions.
-/

namespace Verif.ProperTable
open Verif Verif.Proper

variable {n : ℕ}

/-- The entries of one index of the six lists (falco/proper/prop_begin.py:64-69). -/
structure Row where
  fl : ℝ
  fratio : ℝ
  beam : ℝ
  dist : ℝ
  name : List Char
  samp : ℝ

/-- `np.zeros(nlist, ...)`, one index (falco/proper/prop_begin.py:64-69). -/
def zeroRow : Row := ⟨0, 0, 0, 0, [], 0⟩

/-- The lists and `proper.action_num` (falco/proper/__init__.py:175-181: before any prop_begin with TABLE the lists are empty). -/
structure Tab where
  rows : List Row
  num : ℕ

/-- The wavefronts of a prescription and the table. -/
structure Sys (n : ℕ) where
  wfs : ℕ → Option (WF n)
  tab : Tab

/-- Assignment of a str to an element of an array of dtype S25 (falco/proper/prop_begin.py:68): ASCII only (UnicodeEncodeError, a ValueError), 25 bytes are kept, trailing NULs are not read back. -/
def encode (nm : List Char) : Except PyErr (List Char) :=
  if nm.all (fun c => c.toNat < 128) then .ok ((nm.take 25).reverse.dropWhile (fun c => c.toNat == 0)).reverse else .error .valueError

/-- falco/proper/prop_lens.py:150-161, prop_propagate.py:78-88: the lists at `action_num` are assigned, then the number is raised. -/
def record (t : Tab) (nm dflt : List Char) (f : Row → Row) : Except PyErr Tab :=
  match t.rows[t.num]? with
  | none => .error .indexError
  | some r =>
    match encode (if nm = [] then dflt else nm) with
    | .error e => .error e
    | .ok b => .ok ⟨t.rows.set t.num { f r with name := b }, t.num + 1⟩

/-- falco/proper/prop_get_beamradius.py:32. -/
noncomputable def beamRadius (s : WF n) : ℝ := s.w0 * Real.sqrt (1 + (s.lam * (s.z - s.zw0) / (Real.pi * s.w0 ^ 2)) ^ 2)

/-- The calls of a prescription, with the number of the wavefront and the name of the surface. -/
inductive TOp (n : ℕ) where
  | begin (k : ℕ) (diam lam frac : ℝ)
  | lens (k : ℕ) (fl : ℝ) (nm : List Char)
  | propagate (k : ℕ) (dz : ℝ) (toPlane : Bool) (nm : List Char)
  | addPhase (k : ℕ) (ph : ZMod n → ZMod n → ℝ)

variable [NeZero n]

/-- falco/proper/prop_lens.py:146-161: the table part of prop_lens; `s` is the wavefront in front of the lens, `s'` behind it. -/
noncomputable def lensRow (s s' : WF n) (fl : ℝ) (r : Row) : Row :=
  { r with fl := fl, fratio := |s'.zw0 - s'.z| / (2 * wAt s), beam := 2 * wAt s, samp := s'.dx }

/-- falco/proper/prop_propagate.py:78-81: the table part of prop_propagate. -/
noncomputable def propRow (s' : WF n) (dz : ℝ) (r : Row) : Row := { r with samp := s'.dx, dist := dz, beam := 1 * beamRadius s' }

/-- One call, with `proper.do_table = table` (falco/proper/prop_begin.py:60-72, prop_lens.py:146-161, prop_propagate.py:49-88, prop_add_phase.py:37-38). -/
noncomputable def tstep (table po : Bool) (y : Sys n) : TOp n → Except PyErr (Sys n)
  | .begin k diam lam frac =>
    .ok ⟨Function.update y.wfs k (some (begin_ n diam lam frac)), if table then ⟨List.replicate 1500 zeroRow, 0⟩ else y.tab⟩
  | .lens k fl nm =>
    match y.wfs k with
    | none => .error .nameError
    | some s =>
      match Proper.lens s fl with
      | .error e => .error e
      | .ok s' =>
        match (if table then record y.tab nm "(LENS)".toList (lensRow s s' fl) else .ok y.tab) with
        | .error e => .error e
        | .ok t => .ok ⟨Function.update y.wfs k (some s'), t⟩
  | .propagate k dz tp nm =>
    match y.wfs k with
    | none => .error .nameError
    | some s =>
      match Proper.propagate po s dz tp with
      | .error e => .error e
      | .ok s' =>
        match (if table then record y.tab nm "(SURFACE)".toList (propRow s' dz) else .ok y.tab) with
        | .error e => .error e
        | .ok t => .ok ⟨Function.update y.wfs k (some s'), t⟩
  | .addPhase k ph =>
    match y.wfs k with
    | none => .error .nameError
    | some s => .ok { y with wfs := Function.update y.wfs k (some (Proper.addPhase s ph)) }

/-- A prescription (falco/proper/prop_run.py:140-150). -/
noncomputable def trun (table po : Bool) : Sys n → List (TOp n) → Except PyErr (Sys n)
  | y, [] => .ok y
  | y, o :: os =>
    match tstep table po y o with
    | .error e => .error e
    | .ok y' => trun table po y' os

/-- falco/proper/prop_run.py:128: a new prop_run only resets the number; the lists are those of the run before until prop_begin is called. -/
def newRun (y : Sys n) : Sys n := { y with tab := { y.tab with num := 0 } }

/-- What is printed for a row. -/
inductive Line where
  | lens (name : List Char) (dist samp beam width fl fratio : ℝ)
  | surface (name : List Char) (dist samp beam width : ℝ)

/-- `'%-12s' % name` for an element of a bytes array under Python 3: the repr of the bytes, padded to 12 (falco/proper/prop_table.py:43-46). Only for names without quotes, backslashes
and control characters, whose repr is longer. -/
def shown (b : List Char) : List Char :=
  let t := 'b' :: '\'' :: b ++ ['\'']
  t ++ List.replicate (12 - t.length) ' '

open Classical in
/-- falco/proper/prop_table.py:41-46, one turn of the loop; `n` is `proper.n`. -/
noncomputable def line (n : ℕ) (r : Row) : Line :=
  if r.fl ≠ 0 then .lens (shown r.name) r.dist r.samp r.beam (n * r.samp) r.fl r.fratio else .surface (shown r.name) r.dist r.samp r.beam (n * r.samp)

/-- falco/proper/prop_table.py:26-48. -/
noncomputable def printTable (n : ℕ) (t : Tab) : List Line := (t.rows.take t.num).map (line n)

end Verif.ProperTable
