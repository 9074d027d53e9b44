import Verif.Model.Arr
import Mathlib.Data.Real.Archimedean
import Mathlib.Algebra.Order.Round
import Mathlib.Logic.Function.Basic

/-!
# Model of the files of thin-film tables: `gen_complex_trans_table` (falco/thinfilm.py:425-548)

The function is a machine with one step for each access to the files, so that runs that are cut off and several processes that share the directory can be described.  Simplifications: the name of a
file is the tuple of its formatted fields (falco/thinfilm.py:451-471), so names of materials are assumed not to imitate the rest of a name; `%.1f` and `%.2f` round to the nearest number with a sign
(ties between two numbers to the upper one); writing a file has two steps (the file exists with part of its content, then it is complete), and reading a part of a file raises (ValueError here
for all the exceptions of `np.load`).  The tables are computed by an arbitrary function `film` (`calc_complex_trans_matrix`, C55, C70, C71, C87); `mp.sbp_centers` is long enough and
`mp.full.lambdas` not too long (the code raises IndexError otherwise).
-/

namespace Verif.FilmFiles
open Verif

/-- The parameters that are read. -/
structure Cfg where
  substrate : String
  metal : String
  dielectric : String
  tTi : ℝ
  metalVec : List ℝ
  dtMetal : ℝ
  dielVec : List ℝ
  dtDiel : ℝ
  lambda0 : ℝ
  fracBW : ℝ
  Nsbp : ℕ
  Nwpsbp : ℕ
  aoi : ℝ
  centers : ℕ → ℝ
  lambdas : List ℝ
  d0fac : ℝ
  refl : Bool

/-- `'%.kf' % x`: the sign and the digits. -/
noncomputable def fmt (k : ℕ) (x : ℝ) : Bool × ℕ := (decide (x < 0), (round (10 ^ k * |x|)).toNat)
/-- `'%d' % x` of a float: the part before the point. -/
noncomputable def fmtInt (x : ℝ) : ℤ := if 0 ≤ x then ⌊x⌋ else ⌈x⌉
/-- `np.min` -/
noncomputable def lmin (l : List ℝ) : ℝ := l.foldr min (l.headD 0)
/-- `np.max` -/
noncomputable def lmax (l : List ℝ) : ℝ := l.foldr max (l.headD 0)

/-- The name of a file; `nw` is the number of wavelengths per subband in the name of a table for the full model. -/
structure Name where
  substrate : String
  tTi : Bool × ℕ
  metal : String
  metal0 : Bool × ℕ
  metal1 : Bool × ℕ
  dmetal : Bool × ℕ
  dielectric : String
  diel0 : Bool × ℕ
  diel1 : Bool × ℕ
  ddiel : Bool × ℕ
  wvl : ℤ
  bw : Bool × ℕ
  nsbp : ℕ
  nw : Option ℕ
  aoi : Bool × ℕ
  refl : Bool
deriving DecidableEq

/-- falco/thinfilm.py:451-456, 470: the table for the compact model. -/
noncomputable def nameC (c : Cfg) : Name where
  substrate := c.substrate
  tTi := fmt 1 c.tTi
  metal := c.metal
  metal0 := fmt 1 (lmin c.metalVec)
  metal1 := fmt 1 (lmax c.metalVec)
  dmetal := fmt 2 c.dtMetal
  dielectric := c.dielectric
  diel0 := fmt 1 (lmin c.dielVec)
  diel1 := fmt 1 (lmax c.dielVec)
  ddiel := fmt 2 c.dtDiel
  wvl := fmtInt (10 ^ 9 * c.lambda0)
  bw := fmt 1 (100 * c.fracBW)
  nsbp := c.Nsbp
  nw := none
  aoi := fmt 1 c.aoi
  refl := c.refl

/-- falco/thinfilm.py:459-465, 471: the table for the full model. -/
noncomputable def nameF (c : Cfg) : Name := { nameC c with nw := some c.Nwpsbp }

/-- The arguments of `calc_complex_trans_matrix` (falco/thinfilm.py:495-497, 531-533). -/
structure FilmArgs where
  substrate : String
  metal : String
  dielectric : String
  lam : ℝ
  aoi : ℝ
  tTi : ℝ
  metalVec : List ℝ
  dielVec : List ℝ
  d0 : ℝ

variable {S : Type}

/-- A table: its slices, `none` for one that keeps its initial zeros. -/
abbrev Table (S : Type) := List (Option S)

/-- falco/thinfilm.py:473-479, 493-502, 529-538: one slice. -/
noncomputable def slice (film : FilmArgs → S × S) (c : Cfg) (lam : ℝ) : S :=
  let r := film ⟨c.substrate, c.metal, c.dielectric, lam, c.aoi, 10 ^ (-9 : ℤ) * c.tTi, c.metalVec.map (10 ^ (-9 : ℤ) * ·), c.dielVec.map (10 ^ (-9 : ℤ) * ·), lam * c.d0fac⟩
  if c.refl then r.2 else r.1

/-- falco/thinfilm.py:485-503: the table for the compact model. -/
noncomputable def tableC (film : FilmArgs → S × S) (c : Cfg) : Table S := (List.range c.Nsbp).map fun si => some (slice film c (c.centers si))

/-- falco/thinfilm.py:518-541: the table for the full model, from the one in use for the compact model. -/
noncomputable def tableF (film : FilmArgs → S × S) (c : Cfg) (compact : Table S) : Table S :=
  if c.Nwpsbp = 1 then compact else (List.range (c.Nsbp * c.Nwpsbp)).map fun li => (c.lambdas[li]?).map (slice film c)

/-- The content of a file. -/
inductive File (S : Type)
  | part
  | complete (t : Table S)

/-- The directory `data/material`. -/
abbrev Disk (S : Type) := Name → Option (File S)

/-- How far a call is. -/
inductive PC (S : Type)
  | start                                   -- before `isfile` (481)
  | loadC                                   -- before `np.load` (482)
  | saveC                                   -- computed; before `np.save` (506) creates the file
  | writeC                                  -- within `np.save`
  | startF (tc : Table S)                   -- before `isfile` (511)
  | loadF (tc : Table S)                    -- before `np.load` (512)
  | saveF (tc : Table S)                    -- before `np.save` (544)
  | writeF (tc : Table S)
  | done (tc tf : Table S)                  -- returned (548)
  | failed (e : PyErr)                      -- raised

/-- falco/thinfilm.py:480-548, one step of a call. -/
noncomputable def step (film : FilmArgs → S × S) (c : Cfg) : PC S → Disk S → PC S × Disk S
  | .start, d => if (d (nameC c)).isSome then (.loadC, d) else (.saveC, d)
  | .loadC, d => match d (nameC c) with
    | some (.complete t) => (.startF t, d)
    | _ => (.failed .valueError, d)
  | .saveC, d => (.writeC, Function.update d (nameC c) (some .part))
  | .writeC, d => (.startF (tableC film c), Function.update d (nameC c) (some (.complete (tableC film c))))
  | .startF tc, d => if (d (nameF c)).isSome then (.loadF tc, d) else (.saveF tc, d)
  | .loadF tc, d => match d (nameF c) with
    | some (.complete t) => (.done tc t, d)
    | _ => (.failed .valueError, d)
  | .saveF tc, d => (.writeF tc, Function.update d (nameF c) (some .part))
  | .writeF tc, d => (.done tc (tableF film c tc), Function.update d (nameF c) (some (.complete (tableF film c tc))))
  | .done tc tf, d => (.done tc tf, d)
  | .failed e, d => (.failed e, d)

/-- Processes that share the directory: process `p` calls the function once with `cfg p`.  A step of one of them. -/
noncomputable def sysStep {P : Type} [DecidableEq P] (film : FilmArgs → S × S) (cfg : P → Cfg) (s : (P → PC S) × Disk S) (p : P) : (P → PC S) × Disk S :=
  (Function.update s.1 p (step film (cfg p) (s.1 p) s.2).1, (step film (cfg p) (s.1 p) s.2).2)

/-- A schedule: which process makes the next step.  A process that is killed makes no more. -/
noncomputable def sys {P : Type} [DecidableEq P] (film : FilmArgs → S × S) (cfg : P → Cfg) (d : Disk S) (sched : List P) : (P → PC S) × Disk S :=
  sched.foldl (sysStep film cfg) (fun _ => .start, d)

/-- A call that runs alone: eight steps are enough. -/
noncomputable def call (film : FilmArgs → S × S) (c : Cfg) (d : Disk S) : PC S × Disk S := (fun s : PC S × Disk S => step film c s.1 s.2)^[8] (.start, d)

end Verif.FilmFiles
