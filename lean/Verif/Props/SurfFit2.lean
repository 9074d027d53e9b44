import Verif.Props.SurfFit
import Verif.Props.DmTilt2

/-! # C119, continued: the whole of `fit_surf_to_act` -/

namespace Verif.SurfFit
open Verif Verif.Dm Verif.Util Verif.DmTilt

variable {gd : GridData} {spl : Spline}

theorem shifted_valid {d : DmTilt.Dm} (h : Valid d) (c : Centering) (n : ℕ) (dx : ℝ) : Valid (shifted d c n dx) :=
  ⟨h.mag, h.pitch, h.dxInf, h.slope0, h.slope1, h.tiltx, h.tilty⟩

/-- Interpolation of the subsampled surface that is exact at its pixels. -/
def ExactAtPixels (interp : (ℕ → ℕ → ℝ) → ℝ → ℝ → ℝ) (d : DmTilt.Dm) : Prop := ∀ (A : ℕ → ℕ → ℝ) (x y : ℕ), x < d.grid → y < d.grid → interp A x y = A y x

theorem node_lt (d : DmTilt.Dm) (hm : 1 ≤ d.mag) {r : ℕ} (hr : r < d.nact) : d.off + r * d.mag < d.grid := by
  unfold DmTilt.Dm.off DmTilt.Dm.grid
  have h1 : (r + 1) * d.mag ≤ d.nact * d.mag := Nat.mul_le_mul_right _ hr
  have h2 : d.mag / 2 < d.mag := Nat.div_lt_self (by omega) (by omega)
  have h3 : (r + 1) * d.mag = r * d.mag + d.mag := by ring
  omega

/-- **C119.** The surface made by `gen_surf_from_act` for the heights `z`, with pixel or interpixel centering, is turned back by `fit_surf_to_act` into the heights at the actuators: `z`
convolved with the influence function at actuator resolution - to the accuracy of the interpolations. -/
theorem C119_own_surface (d : DmTilt.Dm) (hv : Valid d) (c : Centering) (h : ℕ) (hK : d.K = 2 * h + 1)
    (hinf : ∀ a b : ℤ, (a < 0 ∨ (d.K : ℤ) ≤ a ∨ b < 0 ∨ (d.K : ℤ) ≤ b) → d.inf a b = 0)
    (interp : (ℕ → ℕ → ℝ) → ℝ → ℝ → ℝ) (hI : ExactAtPixels interp d) (z : Fin d.nact → Fin d.nact → ℝ)
    (n : ℕ) (hn : n % 2 = 0) (hN : d.nact < n) (dx δ : ℝ) (hp : 0 < d.spacing / dx) (hw : 0 < d.window n dx)
    (hr : Reproduces gd spl (shifted d c n dx) (interp (d.surfGrid z)) n dx δ) :
    ∃ g, atActRes gd spl d c n dx (d.fromAct c interp z n dx) = .ok g ∧
      ∀ p, |g p - convolve (kernel d h (h / d.mag)) (fun p => z p.1 p.2) p| ≤ δ := by
  unfold atActRes
  rw [if_neg (by omega), if_pos hN]
  refine ⟨_, rfl, ?_⟩
  rintro ⟨r, k⟩
  have hs := shows_surface (shifted d c n dx) (shifted_valid hv c n dx) interp z n hn dx
  have key := C119_heights (gd := gd) (spl := spl) (shifted d c n dx) (shifted_valid hv c n dx) (interp (d.surfGrid z)) n hn dx δ hp hw
    (d.fromAct c interp z n dx) hs hr r k r.2 k.2
  have e : interp (d.surfGrid z) (onGrid (shifted d c n dx) k) (onGrid (shifted d c n dx) r) = convolve (kernel d h (h / d.mag)) (fun p => z p.1 p.2) (r, k) := by
    rw [← grid_at_actuators d hv.mag h hK hinf z r k, ← hI (d.surfGrid z) _ _ (node_lt d hv.mag k.2) (node_lt d hv.mag r.2)]
    unfold onGrid
    congr 1
    · push_cast; rw [add_comm]; rfl
    · push_cast; rw [add_comm]; rfl
  rw [e] at key
  exact key

/-- The least-squares solver solves. -/
def Solves {ι : Type} [Fintype ι] (A : Matrix ι ι ℝ) (lsq : (ι → ℝ) → ι → ℝ) : Prop := ∀ s, A.mulVec (lsq s) = s

theorem solves_inverse {ι : Type} [Fintype ι] {A : Matrix ι ι ℝ} {lsq : (ι → ℝ) → ι → ℝ} (h : Solves A lsq) (x : ι → ℝ) : lsq (A.mulVec x) = x := by
  classical
  have hs : Function.Surjective (Matrix.mulVecLin A) := fun s => ⟨lsq s, h s⟩
  have hi : Function.Injective (Matrix.mulVecLin A) := LinearMap.injective_iff_surjective.mpr hs
  exact hi (h (A.mulVec x))

/-- **C119.** Round trip: with exact interpolations, a point-symmetric influence function and the least-squares method, fitting the surface that `gen_surf_from_act` makes for the heights `z` yields
the commands `z / VtoH` - for every DM size, pitch, centre, tilt and rotation, with either centering. -/
theorem C119_round_trip (d : DmTilt.Dm) (hv : Valid d) (c : Centering) (h : ℕ) (hK : d.K = 2 * h + 1)
    (hinf : ∀ a b : ℤ, (a < 0 ∨ (d.K : ℤ) ≤ a ∨ b < 0 ∨ (d.K : ℤ) ≤ b) → d.inf a b = 0) (hsym : PointSym (kernel d h (h / d.mag)))
    (interp : (ℕ → ℕ → ℝ) → ℝ → ℝ → ℝ) (hI : ExactAtPixels interp d) (z : Fin d.nact → Fin d.nact → ℝ)
    (n : ℕ) (hn : n % 2 = 0) (hN : d.nact < n) (dx : ℝ) (hp : 0 < d.spacing / dx) (hw : 0 < d.window n dx)
    (hr : Reproduces gd spl (shifted d c n dx) (interp (d.surfGrid z)) n dx 0)
    (lsq prop : (Fin d.nact × Fin d.nact → ℝ) → Fin d.nact × Fin d.nact → ℝ) (hl : Solves (buildPrefilter (kernel d h (h / d.mag))) lsq)
    (method : String) (hm : method.toLower = "lsq") (VtoH : Fin d.nact × Fin d.nact → ℝ) :
    fitSurfToAct gd spl d c method lsq prop VtoH n dx (d.fromAct c interp z n dx) = .ok fun p => z p.1 p.2 / VtoH p := by
  obtain ⟨g, e, hg⟩ := C119_own_surface d hv c h hK hinf interp hI z n hn hN dx 0 hp hw hr
  have hg' : g = (buildPrefilter (kernel d h (h / d.mag))).mulVec (fun p => z p.1 p.2) := by
    funext p
    rw [← C59_fit_reproduces_surface (kernel d h (h / d.mag)) hsym (fun p => z p.1 p.2) _ rfl]
    have := abs_nonpos_iff.mp (hg p)
    linarith
  unfold fitSurfToAct
  rw [e]
  simp only [Except.bind, fitHeights, hm, if_true, Except.map]
  rw [hg', solves_inverse hl]
  rfl

/-- **C119.** Hence commands are recovered from their surface when the DM has orientation 'rot0' and every actuator a gain. -/
theorem C119_commands_recovered (d : DmTilt.Dm) (hv : Valid d) (c : Centering) (h : ℕ) (hK : d.K = 2 * h + 1)
    (hinf : ∀ a b : ℤ, (a < 0 ∨ (d.K : ℤ) ≤ a ∨ b < 0 ∨ (d.K : ℤ) ≤ b) → d.inf a b = 0) (hsym : PointSym (kernel d h (h / d.mag)))
    (interp : (ℕ → ℕ → ℝ) → ℝ → ℝ → ℝ) (hI : ExactAtPixels interp d) (V VtoH : Fin d.nact × Fin d.nact → ℝ) (hV : ∀ p, VtoH p ≠ 0)
    (n : ℕ) (hn : n % 2 = 0) (hN : d.nact < n) (dx : ℝ) (hp : 0 < d.spacing / dx) (hw : 0 < d.window n dx)
    (o : String) (ho : o.toLower = "rot0") (z : Fin d.nact → Fin d.nact → ℝ) (hz : surfOrient o (fun r k => VtoH (r, k) * V (r, k)) = .ok z)
    (hr : Reproduces gd spl (shifted d c n dx) (interp (d.surfGrid z)) n dx 0)
    (lsq prop : (Fin d.nact × Fin d.nact → ℝ) → Fin d.nact × Fin d.nact → ℝ) (hl : Solves (buildPrefilter (kernel d h (h / d.mag))) lsq)
    (method : String) (hm : method.toLower = "lsq") :
    fitSurfToAct gd spl d c method lsq prop VtoH n dx (d.fromAct c interp z n dx) = .ok V := by
  rw [C119_round_trip d hv c h hK hinf hsym interp hI z n hn hN dx hp hw hr lsq prop hl method hm VtoH]
  simp only [surfOrient, ho, if_true, Except.ok.injEq] at hz
  subst hz
  congr 1
  funext p
  exact mul_div_cancel_left₀ _ (hV p)

/-- **C119, violated.** The orientation of the DM is not undone: for a DM with orientation 'rot90' the fit of the surface made by the command `V` is `V` turned by a quarter (unit gains). -/
theorem C119_orientation_violated (d : DmTilt.Dm) (hv : Valid d) (c : Centering) (h : ℕ) (hK : d.K = 2 * h + 1)
    (hinf : ∀ a b : ℤ, (a < 0 ∨ (d.K : ℤ) ≤ a ∨ b < 0 ∨ (d.K : ℤ) ≤ b) → d.inf a b = 0) (hsym : PointSym (kernel d h (h / d.mag)))
    (interp : (ℕ → ℕ → ℝ) → ℝ → ℝ → ℝ) (hI : ExactAtPixels interp d) (V : Fin d.nact × Fin d.nact → ℝ)
    (n : ℕ) (hn : n % 2 = 0) (hN : d.nact < n) (dx : ℝ) (hp : 0 < d.spacing / dx) (hw : 0 < d.window n dx)
    (z : Fin d.nact → Fin d.nact → ℝ) (hz : surfOrient "rot90" (fun r k => (fun _ => 1 : Fin d.nact × Fin d.nact → ℝ) (r, k) * V (r, k)) = .ok z)
    (hr : Reproduces gd spl (shifted d c n dx) (interp (d.surfGrid z)) n dx 0)
    (lsq prop : (Fin d.nact × Fin d.nact → ℝ) → Fin d.nact × Fin d.nact → ℝ) (hl : Solves (buildPrefilter (kernel d h (h / d.mag))) lsq) :
    fitSurfToAct gd spl d c "lsq" lsq prop (fun _ => 1) n dx (d.fromAct c interp z n dx) = .ok fun p => V (p.2, p.1.rev) := by
  rw [C119_round_trip d hv c h hK hinf hsym interp hI z n hn hN dx hp hw hr lsq prop hl "lsq" (by decide +kernel) _]
  have hz' : z = fun r k => V (k, r.rev) := by
    have : surfOrient "rot90" (fun r k => (fun _ => 1 : Fin d.nact × Fin d.nact → ℝ) (r, k) * V (r, k)) = .ok (rot90 (fun r k => V (r, k)) 1) := by
      simp [surfOrient, show "rot90".toLower = "rot90" by decide +kernel]
    rw [this, Except.ok.injEq] at hz
    rw [← hz]
    rfl
  subst hz'
  simp

/-- **C119.** Which surfaces and methods are accepted: a surface of the size of the command array is fitted as it is, a smaller one and an unknown method are refused. -/
theorem C119_accepted (d : DmTilt.Dm) (c : Centering) (method : String) (lsq prop : (Fin d.nact × Fin d.nact → ℝ) → Fin d.nact × Fin d.nact → ℝ)
    (VtoH : Fin d.nact × Fin d.nact → ℝ) (dx : ℝ) (surf : ℕ → ℕ → ℝ) :
    (∀ n < d.nact, fitSurfToAct gd spl d c method lsq prop VtoH n dx surf = .error .valueError) ∧
    (method.toLower ≠ "lsq" → method.toLower ≠ "proper" → ∀ n, fitSurfToAct gd spl d c method lsq prop VtoH n dx surf = .error .valueError) ∧
    (method.toLower = "lsq" → fitSurfToAct gd spl d c method lsq prop VtoH d.nact dx surf = .ok fun p => lsq (fun p => surf p.1 p.2) p / VtoH p) ∧
    (method.toLower = "proper" → fitSurfToAct gd spl d c method lsq prop VtoH d.nact dx surf = .ok fun p => prop (fun p => surf p.1 p.2) p / VtoH p) := by
  refine ⟨?_, ?_, ?_, ?_⟩
  · intro n hn
    simp only [fitSurfToAct, atActRes, if_neg (show ¬ n = d.nact by omega), if_neg (show ¬ n > d.nact by omega)]
    rfl
  · intro h1 h2 n
    simp only [fitSurfToAct, fitHeights, if_neg h1, if_neg h2, atActRes]
    split_ifs <;> rfl
  · intro h1
    simp only [fitSurfToAct, fitHeights, if_pos h1, atActRes, if_true]
    rfl
  · intro h1
    simp only [fitSurfToAct, fitHeights, h1, atActRes, if_true, show ¬ "proper" = "lsq" by decide, if_false]
    rfl

/-- **C119, violated.** The influence function used by the iterative fit ('proper') is read beyond the edge of its array: for every odd array size and number of pixels per actuator its outermost
entries are at least half an array width (more than the last pixel) from the middle; a spline that continues the edge values outwards (as SciPy's does) puts the value in the corner of the array
there, however far the influence function really extends. -/
theorem C119_edge_violated (h mag : ℕ) (hm : 1 ≤ mag) (inf : ℤ → ℤ → ℝ) (spl : Spline) (hx : ExactAtNodes spl)
    (hclamp : ∀ (N : ℕ) (t : Fin (N + 1) → ℝ) (A : Fin (N + 1) → Fin (N + 1) → ℝ) (y x : ℝ), y ≤ t 0 → x ≤ t 0 → spl (N + 1) t A y x = spl (N + 1) t A (t 0) (t 0)) :
    (h : ℝ) / mag < (((fitKernel spl (2 * h + 1) inf mag).1 : ℝ) - 1) / 2 ∧ (fitKernel spl (2 * h + 1) inf mag).2 0 0 = inf 0 0 := by
  have hmr : (0 : ℝ) < mag := by positivity
  set C := ⌈(0.5 : ℝ) * (((2 * h + 1 : ℕ) : ℝ) * 1 / mag)⌉ with hC
  have hc : (h : ℝ) / mag < C := by
    refine lt_of_lt_of_le ?_ (Int.le_ceil _)
    rw [mul_one, mul_div_assoc', div_lt_div_iff_of_pos_right hmr]
    push_cast; linarith
  have hC0 : 0 < C := by
    have : (0 : ℝ) < C := lt_of_le_of_lt (by positivity) hc
    exact_mod_cast this
  have hN : (fitKernel spl (2 * h + 1) inf mag).1 = (2 * C + 1).toNat := rfl
  have hNr : (((fitKernel spl (2 * h + 1) inf mag).1 : ℝ) - 1) / 2 = C := by
    rw [hN]
    have : (((2 * C + 1).toNat : ℤ) : ℝ) = ((2 * C + 1 : ℤ) : ℝ) := by rw [Int.toNat_of_nonneg (by omega)]
    rw [Int.cast_natCast] at this
    rw [this]; push_cast; ring
  refine ⟨by rw [hNr]; exact hc, ?_⟩
  have hq : (-((((2 * C + 1).toNat : ℕ) : ℝ) - 1) / 2 + ((0 : ℕ) : ℝ)) / 1 = -(C : ℝ) := by
    rw [hN] at hNr
    rw [← hNr]; simp; ring
  change spl (2 * h + 1) _ _ ((-((((2 * C + 1).toNat : ℕ) : ℝ) - 1) / 2 + ((0 : ℕ) : ℝ)) / 1) ((-((((2 * C + 1).toNat : ℕ) : ℝ) - 1) / 2 + ((0 : ℕ) : ℝ)) / 1) = inf 0 0
  rw [hq]
  have ht : -(C : ℝ) ≤ (-(((2 * h + 1 : ℕ) : ℝ) - 1) / 2 + (((0 : Fin (2 * h + 1)) : ℕ) : ℝ)) / mag := by
    have : (-(((2 * h + 1 : ℕ) : ℝ) - 1) / 2 + (((0 : Fin (2 * h + 1)) : ℕ) : ℝ)) / mag = -((h : ℝ) / mag) := by
      simp; ring
    rw [this]; linarith
  rw [hclamp (2 * h) _ _ _ _ ht ht]
  refine hx (2 * h + 1) _ _ 0 0 ?_
  intro x y hxy
  have : ((x : ℕ) : ℝ) < (y : ℕ) := by exact_mod_cast hxy
  dsimp only
  gcongr

/-! ## The hypotheses can be met -/

theorem shifted_frame (d : DmTilt.Dm) (c : Centering) (n : ℕ) (dx : ℝ) : (shifted d c n dx).spacing = d.spacing ∧ (shifted d c n dx).nact = d.nact ∧ (shifted d c n dx).mag = d.mag := ⟨rfl, rfl, rfl⟩

/-- Interpolations that reproduce affine functions reproduce every DM shape that is an affine function of the position (`Reproduces` holds with no error): `griddata` with its default, linear,
method is of that kind inside the data, and so are splines. -/
theorem reproduces_affine (d : DmTilt.Dm) (n : ℕ) (hn : 0 < d.nact) (dx : ℝ) (hdx : 0 < dx) (hsp : 0 < d.spacing) (p q s : ℝ)
    (hg : ∀ (N : ℕ) (pts : Fin N → Fin N → ℝ × ℝ) (z : ℝ × ℝ) (p q s : ℝ), gd N pts (fun i j => p * (pts i j).1 + q * (pts i j).2 + s) z = p * z.1 + q * z.2 + s)
    (hl : ∀ (N : ℕ) (t : Fin N → ℝ) (p q s y x : ℝ), StrictMono t → spl N t (fun i j => p * t j + q * t i + s) y x = p * x + q * y + s) :
    Reproduces gd spl d (fun x y => p * x + q * y + s) n dx 0 := by
  refine ⟨0, fun pts _ k l => by rw [hg]; simp, fun A hA r hr c hc => ?_⟩
  have hn' : (0 : ℝ) < d.nact := by exact_mod_cast hn
  set H : ℝ := ((d.window n dx / 2 : ℕ) : ℝ)
  have e : A = fun k l : Fin (d.window n dx) => p * d.nact * d.mag * (((l : ℕ) - H) * (dx / d.spacing) / d.nact) + q * d.nact * d.mag * (((k : ℕ) - H) * (dx / d.spacing) / d.nact) +
      (p * onGrid d (((d.nact : ℝ) - 1) / 2) + q * onGrid d (((d.nact : ℝ) - 1) / 2) + s) := by
    funext k l
    have := abs_nonpos_iff.mp (hA k l)
    rw [sub_eq_zero] at this
    rw [this]
    unfold onGrid
    field_simp
    ring
  rw [e, hl]
  · unfold onGrid
    rw [abs_nonpos_iff]
    field_simp
    ring
  · intro a b hab
    have : ((a : ℕ) : ℝ) < (b : ℕ) := by exact_mod_cast hab
    dsimp only
    gcongr

/-- for every shape there are interpolations that reproduce it -/
theorem reproduces_some (d : DmTilt.Dm) (hd : 0 < d.nact) (F : ℝ → ℝ → ℝ) (n : ℕ) (dx : ℝ) : ∃ (gd : GridData) (spl : Spline), Reproduces gd spl d F n dx 0 := by
  refine ⟨fun _ _ _ z => F z.1 z.2, fun _ _ _ y x => F (onGrid d (x * d.nact + ((d.nact : ℝ) - 1) / 2)) (onGrid d (y * d.nact + ((d.nact : ℝ) - 1) / 2)), 0, ?_, ?_⟩
  · intro pts _ k l; simp
  · intro A _ r _ c _
    have hn' : (d.nact : ℝ) ≠ 0 := by positivity
    simp [div_mul_cancel₀ _ hn']

/-- the nearest node below, or the first one: exact at the nodes and continuing the edge values outwards -/
noncomputable def stepSpline : Spline := fun N t A y x => by
  classical
  exact match N, t, A with
  | 0, _, _ => 0
  | N + 1, t, A => if h : ∃ ij : Fin (N + 1) × Fin (N + 1), t ij.1 = max y (t 0) ∧ t ij.2 = max x (t 0) then A h.choose.1 h.choose.2 else 0

theorem stepSpline_exact : ExactAtNodes stepSpline := by
  intro N t A i j ht
  cases N with
  | zero => exact i.elim0
  | succ N =>
    have h0 (i : Fin (N + 1)) : max (t i) (t 0) = t i := max_eq_left (ht.monotone (Fin.zero_le i))
    have h : ∃ ij : Fin (N + 1) × Fin (N + 1), t ij.1 = max (t i) (t 0) ∧ t ij.2 = max (t j) (t 0) := ⟨(i, j), (h0 i).symm, (h0 j).symm⟩
    change (if h : ∃ ij : Fin (N + 1) × Fin (N + 1), t ij.1 = max (t i) (t 0) ∧ t ij.2 = max (t j) (t 0) then A h.choose.1 h.choose.2 else 0) = A i j
    rw [dif_pos h]
    have hs := h.choose_spec
    rw [ht.injective (hs.1.trans (h0 i)), ht.injective (hs.2.trans (h0 j))]

theorem stepSpline_clamps (N : ℕ) (t : Fin (N + 1) → ℝ) (A : Fin (N + 1) → Fin (N + 1) → ℝ) (y x : ℝ) (hy : y ≤ t 0) (hx : x ≤ t 0) :
    stepSpline (N + 1) t A y x = stepSpline (N + 1) t A (t 0) (t 0) := by
  simp only [stepSpline, max_eq_right hy, max_eq_right hx, max_self]

/-- the DM of C117 with an influence function that is one at its middle and zero elsewhere -/
noncomputable def spotDm : DmTilt.Dm := { sampleDm with inf := fun a b => if a = 45 ∧ b = 45 then 1 else 0 }

theorem spot_kernel : kernel spotDm 45 (45 / spotDm.mag) = fun (a b : Fin (2 * (45 / spotDm.mag) + 1)) => if (a : ℕ) = 4 ∧ (b : ℕ) = 4 then 1 else 0 := by
  funext a b
  have h4 : (45 / spotDm.mag : ℕ) = 4 := rfl
  have hm : spotDm.mag = 10 := rfl
  unfold kernel
  change (if _ then (1 : ℝ) else 0) = _
  simp only [h4, hm]
  congr 1
  simp only [eq_iff_iff]
  constructor <;> rintro ⟨h1, h2⟩ <;> constructor <;> omega

/-- All hypotheses of the round trip are met together by a tilted and rotated DM with 34 actuators and any commands, seen in 400 pixels: here with the pixels read exactly and interpolations made
for the shape. -/
example (z : Fin spotDm.nact → Fin spotDm.nact → ℝ) : ∃ (gd : GridData) (spl : Spline) (interp : (ℕ → ℕ → ℝ) → ℝ → ℝ → ℝ) (lsq : (Fin spotDm.nact × Fin spotDm.nact → ℝ) → Fin spotDm.nact × Fin spotDm.nact → ℝ),
    ExactAtPixels interp spotDm ∧ PointSym (kernel spotDm 45 (45 / spotDm.mag)) ∧ Solves (buildPrefilter (kernel spotDm 45 (45 / spotDm.mag))) lsq ∧
    (∀ a b : ℤ, (a < 0 ∨ (spotDm.K : ℤ) ≤ a ∨ b < 0 ∨ (spotDm.K : ℤ) ≤ b) → spotDm.inf a b = 0) ∧
    Reproduces gd spl (shifted spotDm .pixel 400 (1 / 10)) (interp (spotDm.surfGrid z)) 400 (1 / 10) 0 := by
  obtain ⟨gd, spl, hr⟩ := reproduces_some (shifted spotDm .pixel 400 (1 / 10)) (show 0 < 34 by norm_num) (fun x y => spotDm.surfGrid z ⌊y⌋₊ ⌊x⌋₊) 400 (1 / 10)
  have hs : PointSym (kernel spotDm 45 (45 / spotDm.mag)) := by
    rw [spot_kernel]
    intro a b
    have h4 : (45 / spotDm.mag : ℕ) = 4 := rfl
    have ha := a.2; have hb := b.2
    simp only [h4] at ha hb
    simp only [Fin.val_rev, h4]
    congr 1
    simp only [eq_iff_iff]
    omega
  refine ⟨gd, spl, fun A x y => A ⌊y⌋₊ ⌊x⌋₊, id, ?_, hs, ?_, ?_, hr⟩
  · intro A x y _ _; simp
  · intro s
    funext p
    change (buildPrefilter (kernel spotDm 45 (45 / spotDm.mag))).mulVec s p = s p
    rw [← C59_fit_reproduces_surface _ hs s _ rfl, spot_kernel, convolve]
    have h4 : (45 / spotDm.mag : ℕ) = 4 := rfl
    rw [Finset.sum_eq_single p]
    · rw [dif_pos (by omega)]
      simp only [h4]
      rw [if_pos (by omega), mul_one]
    · intro k _ hk
      by_cases h : 0 ≤ (p.1 : ℤ) - k.1 + (45 / spotDm.mag : ℕ) ∧ (p.1 : ℤ) - k.1 + (45 / spotDm.mag : ℕ) < 2 * (45 / spotDm.mag : ℕ) + 1 ∧
          0 ≤ (p.2 : ℤ) - k.2 + (45 / spotDm.mag : ℕ) ∧ (p.2 : ℤ) - k.2 + (45 / spotDm.mag : ℕ) < 2 * (45 / spotDm.mag : ℕ) + 1
      · rw [dif_pos h, if_neg, mul_zero]
        rintro ⟨h1, h2⟩
        dsimp only at h1 h2
        apply hk
        refine Prod.ext (Fin.ext ?_) (Fin.ext ?_) <;> omega
      · rw [dif_neg h]
    · intro h; exact absurd (Finset.mem_univ p) h
  · intro a b h
    have : spotDm.K = 91 := rfl
    change (if a = 45 ∧ b = 45 then (1 : ℝ) else 0) = 0
    rw [if_neg]
    rintro ⟨rfl, rfl⟩
    omega

end Verif.SurfFit
