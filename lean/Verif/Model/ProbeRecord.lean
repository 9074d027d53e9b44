import Verif.Model.Arr
import Mathlib.Data.Real.Sqrt
import Mathlib.Analysis.Complex.Norm

/-!
# Model of what probing records: `pairwise_probing` (falco/est.py:292-521, 674-681), `pairwise_probes` and `log10nonneg` (falco/plot.py:292-350)

Simplifications: real arithmetic; an array is a function of its indices (all stores are within the allocated sizes); both DMs have `Nact × Nact` actuators (different sizes: C35).  The camera is
any function of star, subband, number of the image and the two commands, so that each exposure may have its own noise.  The generator of the probes and the estimate from the intensities are
parameters (C33, C34, C83).  A figure is the list of values that are drawn; the logarithm (`np.log10`) and the drawing itself are left out.
-/

namespace Verif.ProbeRecord
open Verif

/-- The command of a DM. -/
abbrev Cmd (n : ℕ) : Type := Fin n × Fin n → ℝ

/-- Settings, the commands before the call, and the outside world. -/
structure Cfg (P : Type) (npix n : ℕ) where
  Npairs : ℕ
  Nsbp : ℕ
  Nstar : ℕ
  flagPlot : Bool
  whichDM : ℕ
  dmInd : List ℕ
  weights : ℕ → ℝ                                   -- mp.sbp_weights
  corr : Fin npix → P                               -- mp.Fend.corr.maskBool
  VtoH1 : Cmd n
  VtoH2 : Cmd n
  V1 : Cmd n                                        -- mp.dm1.V at the start
  V2 : Cmd n
  camera : ℕ → ℕ → ℕ → Cmd n → Cmd n → P → ℝ        -- star, subband, image
  gen : ℕ → (P → ℝ) → ℕ → Cmd n                     -- star, unprobed image, probe
  solve : ℕ → ℕ → (Fin npix → ℝ) → (ℕ → Fin npix → ℝ) → (ℕ → Fin npix → ℝ) → Fin npix → ℂ

/-- One figure: four columns with a row per pair. -/
structure Figure (P : Type) (n : ℕ) where
  star : ℕ
  command : List (Cmd n)
  plus : List (P → ℝ)
  minus : List (P → ℝ)
  ampSq : List (P → ℝ)

/-- What is recorded in `ev`; `imageArray k s` is `ev.imageArray[:, :, k, s]`. -/
structure Ev (P : Type) (npix n : ℕ) where
  imageArray : ℕ → ℕ → P → ℝ
  Vall1 : Option (ℕ → ℕ → Cmd n)
  Vall2 : Option (ℕ → ℕ → Cmd n)
  Im : P → ℝ
  IprobedMean : ℝ
  Eest : ℕ → Fin npix → ℂ
  IincoEst : ℕ → Fin npix → ℝ
  ampSqMean : Option ℝ
  figures : List (Figure P n)

variable {P : Type} {npix n : ℕ}

/-- falco/est.py:280-285: whether DM `d` is in `mp.dm_ind` during the call (the comparison of a list with a number is `False`, so that the probing DM is always appended). -/
def Cfg.uses (c : Cfg P npix n) (d : ℕ) : Prop := d ∈ c.dmInd ++ [c.whichDM]

instance (c : Cfg P npix n) (d : ℕ) : Decidable (c.uses d) := inferInstanceAs (Decidable (_ ∈ _))

/-- falco/est.py:296-298 -/
def Cfg.nom1 (c : Cfg P npix n) : Cmd n := if c.uses 1 then c.V1 else 0

/-- falco/est.py:300-303 -/
def Cfg.nom2 (c : Cfg P npix n) : Cmd n := if c.uses 2 then c.V2 else 0

/-- `a[k, s] = v` -/
def put {α : Type} (a : ℕ → ℕ → α) (k s : ℕ) (v : α) : ℕ → ℕ → α := fun k' s' => if k' = k ∧ s' = s then v else a k' s'

/-- The mean over the dark hole. -/
noncomputable def Cfg.mean (c : Cfg P npix n) (im : P → ℝ) : ℝ := (∑ i, im (c.corr i)) / npix

/-- falco/est.py:306-319 -/
def init (c : Cfg P npix n) : Ev P npix n :=
  { imageArray := fun _ _ _ => 0
    Vall1 := if c.uses 1 then some fun _ _ => 0 else none
    Vall2 := if c.uses 2 then some fun _ _ => 0 else none
    Im := fun _ => 0
    IprobedMean := 0
    Eest := fun _ _ => 0
    IincoEst := fun _ _ => 0
    ampSqMean := none
    figures := [] }

/-- falco/est.py:395-410: the unprobed image `I0`, of the first star only. -/
def unprobed (c : Cfg P npix n) (star si : ℕ) (I0 : P → ℝ) (e : Ev P npix n) : Ev P npix n :=
  if star = 0 then
    { e with
      Im := fun p => e.Im p + c.weights si * I0 p
      imageArray := put e.imageArray 0 si I0
      Vall1 := e.Vall1.map fun a => put a 0 si c.nom1
      Vall2 := e.Vall2.map fun a => put a 0 si c.nom2 }
  else e

/-- falco/est.py:384-385, 447-463: `mp.dm1.V` during probe `k`. -/
def Cfg.cmd1 (c : Cfg P npix n) (star : ℕ) (I0 : P → ℝ) (k : ℕ) : Cmd n :=
  if c.uses 1 then c.nom1 + (if c.whichDM = 1 then c.gen star I0 k else 0) else c.nom1

/-- falco/est.py:384-385, 447-463: `mp.dm2.V` during probe `k`. -/
def Cfg.cmd2 (c : Cfg P npix n) (star : ℕ) (I0 : P → ℝ) (k : ℕ) : Cmd n :=
  if c.uses 2 then c.nom2 + (if c.whichDM = 2 then c.gen star I0 k else 0) else c.nom2

/-- falco/est.py:397: the unprobed image. -/
def Cfg.image0 (c : Cfg P npix n) (star si : ℕ) : P → ℝ := c.camera star si 0 c.nom1 c.nom2

/-- falco/est.py:465: probed image `k`. -/
def Cfg.imageK (c : Cfg P npix n) (star si k : ℕ) : P → ℝ :=
  c.camera star si (k + 1) (c.cmd1 star (c.image0 star si) k) (c.cmd2 star (c.image0 star si) k)

/-- falco/est.py:465-477: probe `k` is recorded. -/
noncomputable def probed (c : Cfg P npix n) (star si : ℕ) (e : Ev P npix n) (k : ℕ) : Ev P npix n :=
  { e with
    IprobedMean := e.IprobedMean + c.mean (c.imageK star si k) / (2 * c.Npairs : ℕ)
    imageArray := put e.imageArray (1 + k) si (c.imageK star si k)
    Vall1 := e.Vall1.map fun a => put a (1 + k) si (c.cmd1 star (c.image0 star si) k)
    Vall2 := e.Vall2.map fun a => put a (1 + k) si (c.cmd2 star (c.image0 star si) k) }

/-- falco/est.py:485-500: `Iplus[:, i]`, from the images with even `k`. -/
def Cfg.iplus (c : Cfg P npix n) (star si i : ℕ) (x : Fin npix) : ℝ := c.imageK star si (2 * i) (c.corr x)

/-- falco/est.py:485-500: `Iminus[:, i]`, from the images with odd `k`. -/
def Cfg.iminus (c : Cfg P npix n) (star si i : ℕ) (x : Fin npix) : ℝ := c.imageK star si (2 * i + 1) (c.corr x)

/-- falco/est.py:503-504 -/
noncomputable def Cfg.ampSq (c : Cfg P npix n) (star si i : ℕ) (x : Fin npix) : ℝ :=
  let a := (c.iplus star si i x + c.iminus star si i x) / 2 - c.image0 star si (c.corr x)
  if a < 0 then 0 else a

open Classical in
/-- falco/est.py:508-512: `ampSq2Dcube`; a pixel of the dark hole is selected once by the mask. -/
noncomputable def Cfg.ampCube (c : Cfg P npix n) (star si i : ℕ) (p : P) : ℝ := if h : ∃ x, c.corr x = p then c.ampSq star si i h.choose else 0

/-- falco/est.py:488-491, 518-520: `dDMVplus[:, :, i]`; `DM1Vplus` stays zero when DM 2 probes. -/
def Cfg.dDMVplus (c : Cfg P npix n) (star si i : ℕ) : Cmd n :=
  (if c.whichDM = 1 then (c.gen star (c.image0 star si) (2 * i)) + c.nom1 else 0) - c.nom1

/-- falco/plot.py:348-350: the array after `array[array < 0] = 0`. -/
noncomputable def nonneg (a : P → ℝ) : P → ℝ := fun p => if a p < 0 then 0 else a p

/-- falco/plot.py:313-341: one panel after the other; the views of `ev.imageArray` are changed in place.  `col` is 1 or 2. -/
noncomputable def drawColumn (si col : ℕ) (a : ℕ → ℕ → P → ℝ) (Npairs : ℕ) : ℕ → ℕ → P → ℝ :=
  (List.range Npairs).foldl (fun a row => put a (2 * row + col) si (nonneg (a (2 * row + col) si))) a

/-- falco/plot.py:292-345.  `plt.subplots` refuses to make no rows and gives a one-dimensional array of axes for one row. -/
noncomputable def pairwiseProbes (c : Cfg P npix n) (star si : ℕ) (e : Ev P npix n) : Except PyErr (Ev P npix n) :=
  if c.flagPlot then
    if c.Npairs = 0 then .error .valueError
    else if c.Npairs = 1 then .error .indexError
    else
      let a := drawColumn si 2 (drawColumn si 1 e.imageArray c.Npairs) c.Npairs
      .ok { e with
        imageArray := a
        figures := e.figures ++ [
          { star := star
            command := (List.range c.Npairs).map fun i x => 1e9 * c.dDMVplus star si i x * (if c.whichDM = 1 then c.VtoH1 x else c.VtoH2 x)
            plus := (List.range c.Npairs).map fun i => a (1 + 2 * i) si
            minus := (List.range c.Npairs).map fun i => a (2 + 2 * i) si
            ampSq := (List.range c.Npairs).map fun i => nonneg (c.ampCube star si i) }] }
  else .ok e

/-- falco/est.py:378-676: one star and subband. -/
noncomputable def mode (c : Cfg P npix n) (star si : ℕ) (e : Ev P npix n) : Except PyErr (Ev P npix n) :=
  let e1 := (List.range (2 * c.Npairs)).foldl (probed c star si) (unprobed c star si (c.image0 star si) e)
  (pairwiseProbes c star si e1).bind fun e2 =>
  let E := c.solve star si (fun x => c.image0 star si (c.corr x)) (c.iplus star si) (c.iminus star si)
  .ok { e2 with
    Eest := Function.update e2.Eest (star * c.Nsbp + si) E
    IincoEst := Function.update e2.IincoEst (star * c.Nsbp + si) fun x => c.image0 star si (c.corr x) - ‖E x‖ ^ 2
    ampSqMean := some ((∑ i ∈ Finset.range c.Npairs, ∑ x, c.ampSq star si i x) / (npix * c.Npairs : ℕ)) }

/-- falco/est.py:287-293, 366-380, 678-681.  The mean `ev.ampSqMean` is that of the last mode; it is taken after the loops, from the variable `ampSq`. -/
noncomputable def probing (c : Cfg P npix n) : Except PyErr (Ev P npix n) :=
  if c.whichDM = 1 ∨ c.whichDM = 2 then
    ((List.range c.Nstar).flatMap fun star => (List.range c.Nsbp).map fun si => (star, si)).foldlM (fun e m => mode c m.1 m.2 e) (init c)
  else .error .valueError

end Verif.ProbeRecord
