import Verif.Model.ErrorMap
import Verif.Props.Cubic
import Verif.Props.Szoom
import Verif.Props.ProperShift

/-! # C112: error maps -/

namespace Verif.ErrorMap
open Verif Complex Verif.Proper

/-! ## Specification -/

/-- The value of a map at column `X` and row `Y`: cubic convolution with the library (C110), SciPy's interpolation without. -/
noncomputable def value (b : Backend) (dmap : Cubic.Img) (X Y : ℝ) : ℝ :=
  match b with
  | .library => Cubic.interp dmap.cols dmap.rows dmap.at (Cubic.clampAt dmap.cols X) (Cubic.clampAt dmap.rows Y)
  | .scipy mc _ => mc dmap X Y

/-- The factor of the units and of MULTIPLY. -/
noncomputable def factor (a : Args) : ℝ := (if a.MICRONS then 1e-6 else 1) * (if a.NM then 1e-9 else 1) * a.MULTIPLY.getD 1

/-- The arguments of a call that prop_errormap supports: a phase map with at most one unit; the centre of the map given by both coordinates or not at all; no rotation, no magnification. -/
structure Plain (a : Args) : Prop where
  phase : a.AMPLITUDE = false
  typed : a.MIRROR_SURFACE = true ∨ a.WAVEFRONT = true
  unit : ¬ (a.NM = true ∧ a.MICRONS = true)
  centre : a.XC_MAP.isSome = a.YC_MAP.isSome
  rot : a.ROTATEMAP = none
  mag : a.MAGNIFY = none

/-- The centre used for a map: XC_MAP and YC_MAP, or half the number of rows and of columns. -/
noncomputable def centreOf (dmap : Cubic.Img) (a : Args) : ℝ × ℝ := (a.XC_MAP.getD ((dmap.rows / 2 : ℕ) : ℝ), a.YC_MAP.getD ((dmap.cols / 2 : ℕ) : ℝ))

/-! ## Resampling -/

theorem coords_get {n : ℕ} {dx pix c xs : ℝ} {i : ℕ} (hi : i < n) : (coords n dx pix c xs)[i]? = some (c + (((i : ℝ) - (n / 2 : ℕ)) * dx - xs) / pix) := by
  unfold coords
  rw [List.getElem?_map, List.getElem?_range hi]
  simp only [Option.map_some, Option.some.injEq]
  ring

/-- C112: pixel `(j, i)` of the resampled map is the value of the map at the place of that pixel of the wavefront grid, shifted by `xshift` in both directions. -/
theorem C112_resample (b : Backend) (n : ℕ) (dx : ℝ) (dmap : Cubic.Img) (hm : dmap.rowMajor = true) (h4 : 4 ≤ dmap.rows ∧ 4 ≤ dmap.cols) (pix xc yc xs ys : ℝ) (j i : ℕ) (hj : j < n) (hi : i < n) :
    resamplemap b n dx dmap pix xc yc xs ys j i = value b dmap (xc + (((i : ℝ) - (n / 2 : ℕ)) * dx - xs) / pix) (yc + (((j : ℝ) - (n / 2 : ℕ)) * dx - xs) / pix) := by
  unfold resamplemap value
  cases b with
  | library =>
    simp only
    rw [Cubic.C110_grid true (A := dmap.T) (B := dmap) ⟨hm, Or.inl rfl⟩ h4.1 h4.2 _ _ (by simp [coords]) j i _ _ (coords_get hi) (coords_get hj)]
  | scipy mc rot =>
    simp only [List.getD_eq_getElem?_getD, coords_get hi, coords_get hj, Option.getD_some]

/-- C112: `yshift` has no effect, and `xshift` moves the map in both directions: with a map that grows from row to row by 1, each resampled pixel is off by the difference of the shifts, in pixels, from the
documented result. -/
theorem C112_shift_violated (n : ℕ) (dx : ℝ) (m : ℕ) (pix xc yc xs ys : ℝ) (j i : ℕ) (hj : j < n) (hi : i < n) (X Y : ℝ) (hX : X = xc + (((i : ℝ) - (n / 2 : ℕ)) * dx - xs) / pix) (hY : Y = yc + (((j : ℝ) - (n / 2 : ℕ)) * dx - xs) / pix)
    (hXin : 3 / 2 ≤ X ∧ X ≤ m - 2) (hYin : 3 / 2 ≤ Y ∧ Y ≤ m - 2) :
    resamplemap .library n dx ⟨m, m, fun r _ => r, true⟩ pix xc yc xs ys j i = (yc + (((j : ℝ) - (n / 2 : ℕ)) * dx - ys) / pix) + (ys - xs) / pix := by
  have h4 : (3 / 2 : ℝ) ≤ m - 2 := by linarith [hXin.1, hXin.2]
  have h4 : (3 : ℝ) < m := by linarith
  have h4 : 3 < m := by exact_mod_cast h4
  rw [C112_resample .library n dx ⟨m, m, fun r _ => r, true⟩ rfl ⟨h4, h4⟩ pix xc yc xs ys j i hj hi, ← hX, ← hY]
  unfold value
  simp only
  rw [Cubic.clampAt_inside m X hXin.1 (by linarith [hXin.2]), Cubic.clampAt_inside m Y hYin.1 (by linarith [hYin.2])]
  have e := Cubic.C110_quadratic m m X Y ⟨by linarith [hXin.1], hXin.2⟩ ⟨by linarith [hYin.1], hYin.2⟩ 1 0 0 0 1 0
  rw [show (1 + 0 * X + 0 * X ^ 2) * (0 + 1 * Y + 0 * Y ^ 2) = Y by ring] at e
  have e2 : Cubic.interp m m (Cubic.Img.at ⟨m, m, fun r _ => r, true⟩) X Y = Y := by
    refine Eq.trans (Cubic.interp_congr (fun p q _ hq => ?_) _ _) e
    obtain ⟨Q, rfl⟩ := Int.eq_ofNat_of_zero_le hq.1
    simp [Cubic.Img.at]
  rw [e2, hY]
  ring

/-- C112: a map of the size and sampling of the wavefront, centred, is copied, except for the first two and the last rows and columns (C110). -/
theorem C112_aligned (n : ℕ) (h4 : 4 ≤ n) (dx : ℝ) (hdx : dx ≠ 0) (dmap : Cubic.Img) (hm : dmap.rowMajor = true) (hr : dmap.rows = n) (hc : dmap.cols = n) (ys : ℝ) (j i : ℕ) (hj : j < n) (hi : i < n) :
    resamplemap .library n dx dmap dx (n / 2 : ℕ) (n / 2 : ℕ) 0 ys j i = dmap.at (Cubic.clampPix n i) (Cubic.clampPix n j) := by
  have e : ∀ i : ℕ, ((n / 2 : ℕ) : ℝ) + (((i : ℝ) - (n / 2 : ℕ)) * dx - 0) / dx = ((i : ℤ) : ℝ) := by
    intro i
    rw [sub_zero, mul_div_assoc, div_self hdx]; push_cast; ring
  unfold resamplemap
  simp only
  rw [Cubic.C110_copies true (A := dmap.T) (B := dmap) ⟨hm, Or.inl rfl⟩ (hr ▸ h4) (hc ▸ h4) _ _ rfl j i i j (by rw [coords_get hi, e]) (by rw [coords_get hj, e]), hr, hc]

/-! ## Application to the wavefront -/

/-- C112: amplitude maps cannot be used: every call with AMPLITUDE raises an exception, with any map and any other arguments. -/
theorem C112_amplitude_violated {n : ℕ} (b : Backend) (sz : Bool) (wf : WF n) (dmap : Cubic.Img) (h : Header) (a : Args) (ha : a.AMPLITUDE = true) :
    errormap b sz wf dmap h a = .error (if a.NM then .systemExit else .nameError) := by
  unfold errormap checks
  rw [if_pos ha]
  cases a.NM <;> rfl

/-- The end of prop_errormap. -/
theorem errormap_ok {n : ℕ} (b : Backend) (sz : Bool) (wf : WF n) (dmap : Cubic.Img) (h : Header) (a : Args) (r : WF n × (ZMod n → ZMod n → ℝ)) (hok : errormap b sz wf dmap h a = .ok r) :
    a.AMPLITUDE = false ∧ ∃ m, r.2 = shiftCenter m ∧
      ((a.MIRROR_SURFACE = true ∧ r.1 = { wf with arr := fun i j => wf.arr i j * exp (-4 * Real.pi * I / wf.lam * (m i j : ℝ)) }) ∨
       (a.MIRROR_SURFACE = false ∧ a.WAVEFRONT = true ∧ r.1 = { wf with arr := fun i j => wf.arr i j * exp (2 * Real.pi * I / wf.lam * (m i j : ℝ)) })) := by
  have hA : a.AMPLITUDE = false := by
    cases hA : a.AMPLITUDE with
    | false => rfl
    | true => rw [C112_amplitude_violated b sz wf dmap h a hA] at hok; cases hok
  refine ⟨hA, ?_⟩
  unfold errormap at hok
  simp only [bind, Except.bind, pure, Except.pure] at hok
  split at hok
  · cases hok
  split at hok
  · cases hok
  split at hok
  · cases hok
  split at hok
  · cases hok
  split at hok
  · cases hok
  split at hok
  · cases hok
  rename_i d _
  cases hM : a.MIRROR_SURFACE with
  | true =>
    rw [hM, if_pos rfl] at hok
    split at hok
    · cases hok
    · rename_i m _
      cases hok
      exact ⟨m, rfl, Or.inl ⟨rfl, rfl⟩⟩
  | false =>
    rw [hM, if_neg (by simp)] at hok
    cases hW : a.WAVEFRONT with
    | true =>
      rw [hW, if_pos rfl] at hok
      split at hok
      · cases hok
      · rename_i m _
        cases hok
        exact ⟨m, rfl, Or.inr ⟨rfl, rfl, rfl⟩⟩
    | false =>
      rw [hW, if_neg (by simp), hA, if_neg (by simp)] at hok
      cases hok

/-- C112: on a grid of even size, a call that returns a map has added that map to the phase as prop_add_phase does, for a mirror surface multiplied by -2. -/
theorem C112_adds_phase {n : ℕ} (hn : Even n) (b : Backend) (sz : Bool) (wf wf' : WF n) (dmap : Cubic.Img) (h : Header) (a : Args) (m : ZMod n → ZMod n → ℝ) (hok : errormap b sz wf dmap h a = .ok (wf', m)) :
    wf' = addPhase wf (if a.MIRROR_SURFACE then fun i j => -2 * m i j else m) := by
  obtain ⟨_, d, hm, hd⟩ := errormap_ok b sz wf dmap h a _ hok
  simp only at hm hd
  have e : shiftCenter m = d := by rw [hm, C58_twice_even hn hn]
  unfold addPhase
  rcases hd with ⟨h1, h2⟩ | ⟨h1, _, h2⟩
  · rw [h2, h1, if_pos rfl]
    congr 1
    funext i j
    have : shiftCenter (fun i j => -2 * m i j) i j = -2 * d i j := by rw [← e]; rfl
    rw [this]
    congr 2
    push_cast
    ring
  · rw [h2, h1, if_neg (by simp), e]

/-- C112: the intensity is never changed. -/
theorem C112_intensity {n : ℕ} (b : Backend) (sz : Bool) (wf wf' : WF n) (dmap : Cubic.Img) (h : Header) (a : Args) (m : ZMod n → ZMod n → ℝ) (hok : errormap b sz wf dmap h a = .ok (wf', m)) (i j : ZMod n) :
    ‖wf'.arr i j‖ = ‖wf.arr i j‖ := by
  obtain ⟨_, d, _, hd⟩ := errormap_ok b sz wf dmap h a _ hok
  simp only at hd
  have key : ∀ t : ℝ, ‖exp ((t : ℂ) * I)‖ = 1 := fun t => Complex.norm_exp_ofReal_mul_I t
  rcases hd with ⟨_, h2⟩ | ⟨_, _, h2⟩
  · rw [h2]
    simp only
    rw [norm_mul, show (-4 * Real.pi * I / wf.lam * (d i j : ℝ) : ℂ) = ((-4 * Real.pi / wf.lam * d i j : ℝ) : ℂ) * I by push_cast; ring, key, mul_one]
  · rw [h2]
    simp only
    rw [norm_mul, show (2 * Real.pi * I / wf.lam * (d i j : ℝ) : ℂ) = ((2 * Real.pi / wf.lam * d i j : ℝ) : ℂ) * I by push_cast; ring, key, mul_one]

theorem scaleBy_some {n : ℕ} (k : Option ℝ) (m : ZMod n → ZMod n → ℝ) : scaleBy k (some m) = .ok (some fun j i => m j i * k.getD 1) := by
  cases k with
  | none => simp [scaleBy]
  | some k => rfl

theorem load_plain {n : ℕ} (b : Backend) (wf : WF n) (dmap : Cubic.Img) (h : Header) (a : Args) (hc : a.XC_MAP.isSome = a.YC_MAP.isSome) :
    load b wf dmap h a = match pixsizeOf (Masks.beamradius wf) h a.SAMPLING with
      | .error e => .error e
      | .ok pix => .ok (some (shiftCenter (ofImg n (resamplemap b n wf.dx dmap pix (centreOf dmap a).1 (centreOf dmap a).2 a.xshift a.yshift)))) := by
  unfold load centreOf readmap
  rcases hx : a.XC_MAP with _ | x <;> rcases hy : a.YC_MAP with _ | y <;> rcases hs : a.SAMPLING with _ | s <;> simp [hx, hy] at hc ⊢ <;>
    (cases pixsizeOf (Masks.beamradius wf) h _ <;> rfl)

/-- C112: a plain call (see `Plain`) with a known pixel size returns, on a grid of even size, the values of the map at the places of the pixels, times the factor of the units; the place is measured from the centre of the map
in units of its pixel size (`RADPIX`, `SAMPLING`, `PIXSIZE`, in this order), and shifted as in `C112_resample`. -/
theorem C112_map {n : ℕ} [NeZero n] (hn : Even n) (b : Backend) (sz : Bool) (wf : WF n) (dmap : Cubic.Img) (hmaj : dmap.rowMajor = true) (h4 : 4 ≤ dmap.rows ∧ 4 ≤ dmap.cols) (h : Header) (a : Args) (ha : Plain a)
    (pix : ℝ) (hp : pixsizeOf (Masks.beamradius wf) h a.SAMPLING = .ok pix) :
    ∃ wf' m, errormap b sz wf dmap h a = .ok (wf', m) ∧ ∀ j i : ZMod n, m j i = factor a *
      value b dmap ((centreOf dmap a).1 + (((i.val : ℝ) - (n / 2 : ℕ)) * wf.dx - a.xshift) / pix) ((centreOf dmap a).2 + (((j.val : ℝ) - (n / 2 : ℕ)) * wf.dx - a.xshift) / pix) := by
  have hck : checks a = .ok () := by
    have h1 := ha.phase
    have h2 := ha.unit
    unfold checks
    cases hN : a.NM <;> cases hM : a.MICRONS <;> rw [h1] <;> first | rfl | (exfalso; exact h2 ⟨hN, hM⟩)
  have hload := load_plain b wf dmap h a ha.centre
  rw [hp] at hload
  simp only at hload
  set m0 := shiftCenter (ofImg n (resamplemap b n wf.dx dmap pix (centreOf dmap a).1 (centreOf dmap a).2 a.xshift a.yshift)) with hm0
  have hturn : turn b sz a (some m0) = .ok (some m0) := by
    unfold turn
    rw [ha.rot, ha.mag]
    rfl
  set k1 : Option ℝ := if a.MICRONS then some 1e-6 else none
  set k2 : Option ℝ := if a.NM then some 1e-9 else none
  have hfac : k1.getD 1 * k2.getD 1 * a.MULTIPLY.getD 1 = factor a := by
    unfold factor
    simp only [k1, k2]
    cases a.MICRONS <;> cases a.NM <;> rfl
  have hend : ∃ wf', errormap b sz wf dmap h a = .ok (wf', shiftCenter fun j i => m0 j i * k1.getD 1 * k2.getD 1 * a.MULTIPLY.getD 1) := by
    unfold errormap
    rw [hck]
    simp only [bind, Except.bind]
    rw [hload]
    simp only
    rw [hturn]
    simp only
    rw [scaleBy_some]
    simp only
    rw [scaleBy_some]
    simp only
    rw [scaleBy_some]
    simp only
    cases hM : a.MIRROR_SURFACE with
    | true => exact ⟨_, rfl⟩
    | false =>
      have hW : a.WAVEFRONT = true := by rcases ha.typed with h | h; rw [hM] at h; cases h; exact h
      rw [hW]
      exact ⟨_, rfl⟩
  obtain ⟨wf', hend⟩ := hend
  refine ⟨wf', _, hend, fun j i => ?_⟩
  have e2 : (shiftCenter fun j i => m0 j i * k1.getD 1 * k2.getD 1 * a.MULTIPLY.getD 1) j i = shiftCenter m0 j i * (k1.getD 1 * k2.getD 1 * a.MULTIPLY.getD 1) := by
    rw [← mul_assoc, ← mul_assoc]; rfl
  rw [e2, hfac, hm0, C58_twice_even hn hn, mul_comm]
  unfold ofImg
  rw [C112_resample b n wf.dx dmap hmaj h4 _ _ _ _ _ _ _ (ZMod.val_lt j) (ZMod.val_lt i)]

/-- C112: a map whose header has neither RADPIX nor PIXSIZE needs SAMPLING. -/
theorem C112_no_pixsize {n : ℕ} (b : Backend) (sz : Bool) (wf : WF n) (dmap : Cubic.Img) (h : Header) (a : Args) (ha : Plain a) (h1 : h.radpix = none) (h2 : h.pixsize = none) (h3 : a.SAMPLING = none) :
    errormap b sz wf dmap h a = .error .valueError := by
  have hck : checks a = .ok () := by
    have h1 := ha.phase
    have h2 := ha.unit
    unfold checks
    cases hN : a.NM <;> cases hM : a.MICRONS <;> rw [h1] <;> first | rfl | (exfalso; exact h2 ⟨hN, hM⟩)
  have hload := load_plain b wf dmap h a ha.centre
  unfold errormap
  rw [hck]
  simp only [bind, Except.bind]
  rw [hload, h3]
  simp [pixsizeOf, h1, h2]

/-- C112: the beam radius in the header goes before the argument SAMPLING. -/
theorem C112_radpix (r : ℝ) (h : Header) (rp : ℝ) (hr : h.radpix = some rp) (s : Option ℝ) : pixsizeOf r h s = .ok (r / rp) := by
  unfold pixsizeOf; rw [hr]

/-- C112: one coordinate of the centre alone: without SAMPLING there is no result, … -/
theorem C112_lone_centre {n : ℕ} (b : Backend) (sz : Bool) (wf : WF n) (dmap : Cubic.Img) (h : Header) (a : Args) (ha : a.XC_MAP.isSome ≠ a.YC_MAP.isSome) (hs : a.SAMPLING = none) : ∃ e, errormap b sz wf dmap h a = .error e := by
  have hload : load b wf dmap h a = .ok none := by
    unfold load
    rw [hs]
    rcases hx : a.XC_MAP with _ | x <;> rcases hy : a.YC_MAP with _ | y <;> simp [hx, hy] at ha ⊢ <;> rfl
  cases hres : errormap b sz wf dmap h a with
  | error e => exact ⟨e, rfl⟩
  | ok r =>
    exfalso
    unfold errormap at hres
    simp only [bind, Except.bind, pure, Except.pure, hload] at hres
    split at hres
    · cases hres
    have ht : ∀ t, turn b sz a (none : Option (ZMod n → ZMod n → ℝ)) = .ok t → t = none := by
      intro t ht
      unfold turn use at ht
      simp only [bind, Except.bind, pure, Except.pure] at ht
      split at ht <;> cases ht
      rfl
    have hsc : ∀ k t, scaleBy k (none : Option (ZMod n → ZMod n → ℝ)) = .ok t → t = none := by
      intro k t ht
      cases k <;> cases ht
      rfl
    split at hres
    · cases hres
    rename_i t1 e1
    rw [ht _ e1] at hres
    split at hres
    · cases hres
    rename_i t2 e2
    rw [hsc _ _ e2] at hres
    split at hres
    · cases hres
    rename_i t3 e3
    rw [hsc _ _ e3] at hres
    split at hres
    · cases hres
    rename_i t4 e4
    rw [hsc _ _ e4] at hres
    unfold use at hres
    split_ifs at hres

/-- C112: … and with SAMPLING it is ignored without notice. -/
theorem C112_lone_centre_violated {n : ℕ} (b : Backend) (sz : Bool) (wf : WF n) (dmap : Cubic.Img) (h : Header) (a : Args) (x s : ℝ) (hx : a.XC_MAP = some x) (hy : a.YC_MAP = none) (hs : a.SAMPLING = some s) :
    errormap b sz wf dmap h a = errormap b sz wf dmap h { a with XC_MAP := none } := by
  have : load b wf dmap h a = load b wf dmap h { a with XC_MAP := none } := by
    unfold load
    simp [hx, hy, hs]
  unfold errormap
  rw [this]
  rfl

/-- C112: the default centre of a rectangular map is taken with its coordinates exchanged: the centre pixel of the wavefront gets the value in column `rows//2` and row `cols//2`. -/
theorem C112_rect_violated {n : ℕ} [NeZero n] (hn : Even n) (b : Backend) (wf : WF n) (dmap : Cubic.Img) (hmaj : dmap.rowMajor = true) (h4 : 4 ≤ dmap.rows ∧ 4 ≤ dmap.cols) (h : Header) (ys : ℝ) (pix : ℝ) (s : Option ℝ)
    (hp : pixsizeOf (Masks.beamradius wf) h s = .ok pix) :
    ∃ m, readmap b wf dmap h 0 ys none s = .ok m ∧ m 0 0 = value b dmap (dmap.rows / 2 : ℕ) (dmap.cols / 2 : ℕ) := by
  unfold readmap
  rw [hp]
  refine ⟨_, rfl, ?_⟩
  have hn2 : n / 2 < n := Nat.div_lt_self (Nat.pos_of_ne_zero (NeZero.ne n)) (by norm_num)
  have e0 : ∀ f : ZMod n → ZMod n → ℝ, shiftCenter f 0 0 = f ((n / 2 : ℕ) : ZMod n) ((n / 2 : ℕ) : ZMod n) := by
    intro f
    have := C58_origin_to_centre (shiftCenter f)
    rw [C58_twice_even hn hn] at this
    exact this.symm
  rw [e0]
  unfold ofImg
  rw [ZMod.val_natCast_of_lt hn2, C112_resample b n wf.dx dmap hmaj h4 _ _ _ _ _ _ _ hn2 hn2]
  simp

/-! ## Rotation -/

/-- C112: the documented options XC, YC, XSHIFT and YSHIFT of prop_rotate raise an error with the library, whatever their values. -/
theorem C112_rotate_options_violated (A : Cubic.Img) (theta : ℝ) (o : RotOpts) (h : o.XC ≠ none ∨ o.YC ≠ none ∨ o.XSHIFT ≠ none ∨ o.YSHIFT ≠ none) : rotate .library A theta o = .error .unboundLocal := by
  unfold rotate
  simp only
  rw [if_pos]
  simpa [Option.isSome_iff_ne_none] using h

/-- C112: rotation with the library: pixel `(j, i)` is the interpolation at the rotated row coordinate, and at a column coordinate made of the rotated pixel and the fraction of the first pixel in the row. -/
theorem C112_rotate (A : Cubic.Img) (hm : A.rowMajor = true) (hs : A.rows = A.cols) (h4 : 4 ≤ A.rows) (theta : ℝ) (ms : Option ℝ) : ∃ out, rotate .library A theta { MISSING := ms } = .ok out ∧ ∀ j i, i < A.rows →
    out j i = Cubic.interp A.cols A.rows A.at (Cubic.clampPix A.cols (Cubic.roundval (rotX A.rows theta j i)) + (rotX A.rows theta j 0 - Cubic.roundval (rotX A.rows theta j 0))) (Cubic.clampAt A.rows (rotY A.rows theta j i)) := by
  refine ⟨_, by unfold rotate; rw [if_neg (by simp)], fun j i hi => ?_⟩
  exact (Cubic.C110_vec_violated (A := A) (B := A) ⟨hm, Or.inr ⟨rfl, hs⟩⟩ h4 (hs ▸ h4) _ _ i _ _ _ (by rw [List.getElem?_map, List.getElem?_range (by omega)]; rfl) (by rw [List.getElem?_map, List.getElem?_range hi]; rfl)
    (by rw [List.getElem?_map, List.getElem?_range hi]; rfl)).1

theorem rotate_whole (A : Cubic.Img) (hm : A.rowMajor = true) (hs : A.rows = A.cols) (h4 : 4 ≤ A.rows) (theta : ℝ) (ms : Option ℝ) (px py : ℕ → ℕ → ℤ) (hx : ∀ j i, rotX A.rows theta j i = px j i) (hy : ∀ j i, rotY A.rows theta j i = py j i) :
    ∃ out, rotate .library A theta { MISSING := ms } = .ok out ∧ ∀ j i, i < A.rows → out j i = A.at (Cubic.clampPix A.rows (px j i)) (Cubic.clampPix A.rows (py j i)) := by
  obtain ⟨out, h1, h2⟩ := C112_rotate A hm hs h4 theta ms
  refine ⟨out, h1, fun j i hi => ?_⟩
  rw [h2 j i hi, hx, hx, hy, Cubic.roundval_int, Cubic.roundval_int, sub_self, add_zero]
  have e : Cubic.clampAt A.rows ((py j i : ℤ) : ℝ) = ((Cubic.clampPix A.rows (py j i) : ℤ) : ℝ) := by
    unfold Cubic.clampAt
    rw [Cubic.roundval_int]; ring
  rw [e, ← hs, Cubic.C110_pixel]
  · unfold Cubic.clampPix; split_ifs <;> omega
  · unfold Cubic.clampPix; split_ifs <;> omega

/-- C112: rotation by 90 degrees about pixel `n//2` moves whole pixels: column `j`, row `2 (n//2) - i` (except at the edges, C110) goes to `(j, i)`. -/
theorem C112_quarter_turn (A : Cubic.Img) (hm : A.rowMajor = true) (hs : A.rows = A.cols) (h4 : 4 ≤ A.rows) (ms : Option ℝ) : ∃ out, rotate .library A 90 { MISSING := ms } = .ok out ∧ ∀ j i, i < A.rows →
    out j i = A.at (Cubic.clampPix A.rows j) (Cubic.clampPix A.rows (2 * (A.rows / 2 : ℕ) - i)) := by
  have e : -(90 : ℝ) * Real.pi / 180 = -(Real.pi / 2) := by ring
  refine rotate_whole A hm hs h4 90 ms (fun j _ => j) (fun _ i => 2 * (A.rows / 2 : ℕ) - i) ?_ ?_
  · intro j i
    unfold rotX
    rw [e, Real.cos_neg, Real.sin_neg, Real.cos_pi_div_two, Real.sin_pi_div_two]
    push_cast; ring
  · intro j i
    unfold rotY
    rw [e, Real.cos_neg, Real.sin_neg, Real.cos_pi_div_two, Real.sin_pi_div_two]
    generalize A.rows / 2 = H
    push_cast; ring

/-- C112: rotation by 180 degrees likewise. -/
theorem C112_half_turn (A : Cubic.Img) (hm : A.rowMajor = true) (hs : A.rows = A.cols) (h4 : 4 ≤ A.rows) (ms : Option ℝ) : ∃ out, rotate .library A 180 { MISSING := ms } = .ok out ∧ ∀ j i, i < A.rows →
    out j i = A.at (Cubic.clampPix A.rows (2 * (A.rows / 2 : ℕ) - i)) (Cubic.clampPix A.rows (2 * (A.rows / 2 : ℕ) - j)) := by
  have e : -(180 : ℝ) * Real.pi / 180 = -Real.pi := by ring
  refine rotate_whole A hm hs h4 180 ms (fun _ i => 2 * (A.rows / 2 : ℕ) - i) (fun j _ => 2 * (A.rows / 2 : ℕ) - j) ?_ ?_
  · intro j i
    unfold rotX
    rw [e, Real.cos_neg, Real.sin_neg, Real.cos_pi, Real.sin_pi]
    generalize A.rows / 2 = H
    push_cast; ring
  · intro j i
    unfold rotY
    rw [e, Real.cos_neg, Real.sin_neg, Real.cos_pi, Real.sin_pi]
    generalize A.rows / 2 = H
    push_cast; ring

/-- C112: by other angles the rotation is wrong: on an image that grows by 1 from column to column, a pixel well inside does not get its rotated column coordinate whenever the latter has another fraction than that of the first
pixel in the row. -/
theorem C112_rotate_violated (n : ℕ) (theta : ℝ) (ms : Option ℝ) (j i : ℕ) (hi : i < n) (hx : 3 / 2 ≤ rotX n theta j i ∧ rotX n theta j i < n - 5 / 2) (hy : 3 / 2 ≤ rotY n theta j i ∧ rotY n theta j i ≤ n - 2)
    (hne : rotX n theta j 0 - Cubic.roundval (rotX n theta j 0) ≠ rotX n theta j i - Cubic.roundval (rotX n theta j i)) :
    ∃ out, rotate .library (Cubic.ramp n) theta { MISSING := ms } = .ok out ∧ out j i ≠ rotX n theta j i ∧ Cubic.interp n n (Cubic.ramp n).at (rotX n theta j i) (rotY n theta j i) = rotX n theta j i := by
  have hn4 : (4 : ℝ) < n := by linarith [hx.1, hx.2]
  have hn4 : 4 < n := by exact_mod_cast hn4
  obtain ⟨out, h1, h2⟩ := C112_rotate (Cubic.ramp n) rfl rfl hn4.le theta ms
  refine ⟨out, h1, ?_, Cubic.ramp_interp n _ _ ⟨by linarith [hx.1], by linarith [hx.2]⟩ ⟨by linarith [hy.1], hy.2⟩⟩
  rw [h2 j i hi]
  change Cubic.interp n n _ (Cubic.clampPix n (Cubic.roundval (rotX n theta j i)) + (rotX n theta j 0 - Cubic.roundval (rotX n theta j 0))) (Cubic.clampAt n (rotY n theta j i)) ≠ _
  have ex := Cubic.clampAt_inside n (rotX n theta j i) hx.1 (by linarith [hx.2])
  have ey := Cubic.clampAt_inside n (rotY n theta j i) hy.1 (by linarith [hy.2])
  have ec : (Cubic.clampPix n (Cubic.roundval (rotX n theta j i)) : ℝ) = Cubic.roundval (rotX n theta j i) := by
    have := ex
    unfold Cubic.clampAt at this
    linarith
  have h0' := abs_le.1 (Cubic.roundval_close (rotX n theta j 0))
  have rb1 : (2 : ℤ) ≤ Cubic.roundval (rotX n theta j i) := by
    unfold Cubic.roundval
    rw [if_pos (by linarith [hx.1]), Int.le_floor]; push_cast; linarith [hx.1]
  have rb2 : Cubic.roundval (rotX n theta j i) ≤ (n : ℤ) - 3 := by
    unfold Cubic.roundval
    rw [if_pos (by linarith [hx.1])]
    have := Int.floor_le (rotX n theta j i + 1 / 2)
    have hlt : ((⌊rotX n theta j i + 1 / 2⌋ : ℤ) : ℝ) < n - 2 := by linarith [hx.2]
    have : ⌊rotX n theta j i + 1 / 2⌋ < (n : ℤ) - 2 := by exact_mod_cast hlt
    omega
  have rb1' : (2 : ℝ) ≤ Cubic.roundval (rotX n theta j i) := by exact_mod_cast rb1
  have rb2' : (Cubic.roundval (rotX n theta j i) : ℝ) ≤ n - 3 := by exact_mod_cast rb2
  rw [ec, ey, Cubic.ramp_interp n _ _ ⟨by linarith [h0'.2], by linarith [h0'.1]⟩ ⟨by linarith [hy.1], hy.2⟩]
  intro h
  exact hne (by linarith)

/-! ## Rotated and magnified maps -/

/-- The map at the sampling of the wavefront, before rotation and magnification: the values given by `C112_resample`. -/
noncomputable def resampled {n : ℕ} (b : Backend) (wf : WF n) (dmap : Cubic.Img) (a : Args) (pix : ℝ) : ZMod n → ZMod n → ℝ :=
  ofImg n fun j i => value b dmap ((centreOf dmap a).1 + (((i : ℝ) - (n / 2 : ℕ)) * wf.dx - a.xshift) / pix) ((centreOf dmap a).2 + (((j : ℝ) - (n / 2 : ℕ)) * wf.dx - a.xshift) / pix)

theorem errormap_turned {n : ℕ} [NeZero n] (b : Backend) (sz : Bool) (wf : WF n) (dmap : Cubic.Img) (hmaj : dmap.rowMajor = true) (h4 : 4 ≤ dmap.rows ∧ 4 ≤ dmap.cols) (h : Header) (a : Args)
    (ha : Plain { a with ROTATEMAP := none, MAGNIFY := none }) (pix : ℝ) (hp : pixsizeOf (Masks.beamradius wf) h a.SAMPLING = .ok pix) (m1 : ZMod n → ZMod n → ℝ)
    (hturn : turn b sz a (some (shiftCenter (resampled b wf dmap a pix))) = .ok (some (shiftCenter m1))) :
    ∃ wf', errormap b sz wf dmap h a = .ok (wf', shiftCenter fun j i => shiftCenter m1 j i * factor a) := by
  have hck : checks a = .ok () := by
    have h1 : a.AMPLITUDE = false := ha.phase
    have h2 : ¬ (a.NM = true ∧ a.MICRONS = true) := ha.unit
    unfold checks
    cases hN : a.NM <;> cases hM : a.MICRONS <;> rw [h1] <;> first | rfl | (exfalso; exact h2 ⟨hN, hM⟩)
  have hload := load_plain b wf dmap h a ha.centre
  rw [hp] at hload
  simp only at hload
  have hres : ofImg n (resamplemap b n wf.dx dmap pix (centreOf dmap a).1 (centreOf dmap a).2 a.xshift a.yshift) = resampled b wf dmap a pix := by
    funext j i
    unfold resampled ofImg
    rw [C112_resample b n wf.dx dmap hmaj h4 _ _ _ _ _ _ _ (ZMod.val_lt j) (ZMod.val_lt i)]
  rw [hres] at hload
  have hfac : (if a.MICRONS = true then some (1e-6 : ℝ) else none).getD 1 * (if a.NM = true then some (1e-9 : ℝ) else none).getD 1 * a.MULTIPLY.getD 1 = factor a := by
    unfold factor
    cases a.MICRONS <;> cases a.NM <;> rfl
  rw [← hfac]
  unfold errormap
  rw [hck]
  simp only [bind, Except.bind]
  rw [hload]
  simp only
  rw [hturn]
  simp only
  rw [scaleBy_some]
  simp only
  rw [scaleBy_some]
  simp only
  rw [scaleBy_some]
  simp only [← mul_assoc]
  cases hM : a.MIRROR_SURFACE with
  | true => exact ⟨_, rfl⟩
  | false =>
    have hW : a.WAVEFRONT = true := by
      rcases ha.typed with h | h
      · change a.MIRROR_SURFACE = true at h
        rw [hM] at h; cases h
      · exact h
    rw [hW]
    exact ⟨_, rfl⟩

/-- C112: with ROTATEMAP the returned map is what prop_rotate makes of the map at the sampling of the wavefront, times the factor. -/
theorem C112_rotated {n : ℕ} [NeZero n] (hn : Even n) (b : Backend) (sz : Bool) (wf : WF n) (dmap : Cubic.Img) (hmaj : dmap.rowMajor = true) (h4 : 4 ≤ dmap.rows ∧ 4 ≤ dmap.cols) (h : Header) (a : Args)
    (ha : Plain { a with ROTATEMAP := none, MAGNIFY := none }) (hmag : a.MAGNIFY = none) (th : ℝ) (hrot : a.ROTATEMAP = some th) (pix : ℝ) (hp : pixsizeOf (Masks.beamradius wf) h a.SAMPLING = .ok pix) :
    ∃ wf' m out, errormap b sz wf dmap h a = .ok (wf', m) ∧ rotate b (toImg (resampled b wf dmap a pix)) th {} = .ok out ∧ ∀ j i : ZMod n, m j i = factor a * out j.val i.val := by
  obtain ⟨out, hout, hout'⟩ : ∃ out, rotate b (toImg (resampled b wf dmap a pix)) th {} = .ok out ∧ rotate b (toImg (resampled b wf dmap a pix)) th { MISSING := some 0 } = .ok out := by
    cases b with
    | library => exact ⟨_, rfl, rfl⟩
    | scipy mc rot => exact ⟨_, rfl, rfl⟩
  obtain ⟨wf', he⟩ := errormap_turned b sz wf dmap hmaj h4 h a ha pix hp (ofImg n out) (by
    unfold turn use
    rw [hrot, hmag]
    simp only [bind, Except.bind, C58_twice_even hn hn]
    rw [hout']
    rfl)
  refine ⟨wf', _, out, he, hout, fun j i => ?_⟩
  have : (shiftCenter fun j i => shiftCenter (ofImg n out) j i * factor a) j i = shiftCenter (shiftCenter (ofImg n out)) j i * factor a := rfl
  rw [this, C58_twice_even hn hn, mul_comm]
  rfl

/-- C112: with MAGNIFY it is the damped sinc interpolation (C111) of the map at the sampling of the wavefront, times the factor, and 0 where the window does not fit. -/
theorem C112_magnified {n : ℕ} [NeZero n] (hn : Even n) (b : Backend) (sz : Bool) (wf : WF n) (dmap : Cubic.Img) (hmaj : dmap.rowMajor = true) (h4 : 4 ≤ dmap.rows ∧ 4 ≤ dmap.cols) (h : Header) (a : Args)
    (ha : Plain { a with ROTATEMAP := none, MAGNIFY := none }) (hrot : a.ROTATEMAP = none) (g : ℝ) (hmag : a.MAGNIFY = some g) (pix : ℝ) (hp : pixsizeOf (Masks.beamradius wf) h a.SAMPLING = .ok pix) :
    ∃ wf' m, errormap b sz wf dmap h a = .ok (wf', m) ∧ ∀ j i : ZMod n,
      (Szoom.fits sz n n g j.val ∧ Szoom.fits sz n n g i.val → m j i = factor a * Szoom.damped n (fun q p => resampled b wf dmap a pix q p) (Szoom.place n n g i.val) (Szoom.place n n g j.val)) ∧
      (¬ (Szoom.fits sz n n g j.val ∧ Szoom.fits sz n n g i.val) → m j i = 0) := by
  have hs : Szoom.sizeOut n g n = n := by unfold Szoom.sizeOut; rw [if_neg (NeZero.ne n)]
  obtain ⟨out, hout, hv⟩ := Szoom.C111_real sz n (fun q p => resampled b wf dmap a pix q p) g n .none (by rw [hs]; exact NeZero.ne n)
  rw [hs] at hout
  simp only [hs] at hv
  obtain ⟨wf', he⟩ := errormap_turned b sz wf dmap hmaj h4 h a ha pix hp (ofImg n out) (by
    unfold turn use
    rw [hrot, hmag]
    simp only [bind, Except.bind, pure, Except.pure, C58_twice_even hn hn]
    rw [hout]
    rfl)
  refine ⟨wf', _, he, fun j i => ?_⟩
  have : (shiftCenter fun j i => shiftCenter (ofImg n out) j i * factor a) j i = shiftCenter (shiftCenter (ofImg n out)) j i * factor a := rfl
  rw [this, C58_twice_even hn hn]
  unfold ofImg
  refine ⟨fun hf => ?_, fun hf => ?_⟩
  · rw [(hv _ _).1 hf]; simp [Szoom.factor, mul_comm]
  · rw [(hv _ _).2 hf, zero_mul]

/-! ## The hypotheses can be met -/

example : Plain { WAVEFRONT := true, NM := true, SAMPLING := some 0.001 } := ⟨rfl, Or.inr rfl, by simp, rfl, rfl, rfl⟩

example : Plain { MIRROR_SURFACE := true, XC_MAP := some 3, YC_MAP := some 4, MULTIPLY := some 2 } := ⟨rfl, Or.inl rfl, by simp, rfl, rfl, rfl⟩

/-- A map of 6 by 6 pixels on a grid of 2 by 2 with shift `(1, 0)`: the centre pixel gets the value of row 2, not of row 3. -/
example : resamplemap .library 2 1 ⟨6, 6, fun r _ => r, true⟩ 1 3 3 1 0 1 1 = 2 := by
  rw [C112_shift_violated 2 1 6 1 3 3 1 0 1 1 (by norm_num) (by norm_num) 2 2 (by norm_num) (by norm_num) (by norm_num) (by norm_num)]
  norm_num

end Verif.ErrorMap
