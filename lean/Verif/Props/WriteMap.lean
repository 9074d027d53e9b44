import Verif.Model.WriteMap
import Verif.Props.ErrorMap

/-!
# C132: writing an error map and reading it back (prop_writemap, prop_errormap)
-/

namespace Verif.WriteMap
open Verif Verif.Proper Verif.ErrorMap

/-- **C132 (refusal).** A map without SAMPLING and RADIUS_PIX is not written; any other is, with its data unchanged. -/
theorem C132_written (dmap : Cubic.Img) (a : Args) :
    ((a.RADIUS_PIX = none ∧ a.SAMPLING = none) → writemap dmap a = .error .valueError) ∧
      (¬ (a.RADIUS_PIX = none ∧ a.SAMPLING = none) → ∃ f, writemap dmap a = .ok f ∧ f.data = dmap ∧ f.header.radpix = a.RADIUS_PIX ∧ (f.header.pixsize.isSome ↔ a.RADIUS_PIX = none)) := by
  unfold writemap
  constructor
  · rintro ⟨h1, h2⟩
    simp [h1, h2]
  · intro h
    rw [if_neg (by simpa using h)]
    refine ⟨_, rfl, rfl, ?_, ?_⟩
    · cases a.RADIUS_PIX <;> rfl
    · cases hr : a.RADIUS_PIX with
      | some r => simp
      | none =>
        cases hs : a.SAMPLING with
        | none => exact absurd ⟨hr, hs⟩ h
        | some s => simp

/-- **C132 (round trip).** A map written with the sampling of the wavefront, or with the radius of the beam in pixels of the wavefront, and applied to a wavefront of the same even number (at least 4) of pixels with the C library, is the map that was written times the factor of the units, except for the first two and the last rows and columns, where the next pixel inside is taken. -/
theorem C132_round_trip {n : ℕ} [NeZero n] (hn : Even n) (h4 : 4 ≤ n) (sz : Bool) (wf : WF n) (hdx : wf.dx ≠ 0) (dmap : Cubic.Img) (hm : dmap.rowMajor = true) (hr : dmap.rows = n) (hc : dmap.cols = n)
    (a : Args) (ha : a.RADIUS_PIX = none ∧ a.SAMPLING = some wf.dx ∨ a.RADIUS_PIX = some (Masks.beamradius wf / wf.dx) ∧ Masks.beamradius wf ≠ 0)
    (b : ErrorMap.Args) (hb : Plain b) (h0 : b.xshift = 0) (hx : b.XC_MAP = none) (hs : b.SAMPLING = none) :
    ∃ f wf' m, writemap dmap a = .ok f ∧ errormap .library sz wf f.data f.header b = .ok (wf', m) ∧
      ∀ j i : ZMod n, m j i = factor b * dmap.at (Cubic.clampPix n i.val) (Cubic.clampPix n j.val) := by
  obtain ⟨f, hf, hd, hh⟩ : ∃ f, writemap dmap a = .ok f ∧ f.data = dmap ∧ pixsizeOf (Masks.beamradius wf) f.header b.SAMPLING = .ok wf.dx := by
    unfold writemap
    rcases ha with ⟨h1, h2⟩ | ⟨h1, h2⟩
    · rw [h1, h2, hs]
      exact ⟨_, rfl, rfl, rfl⟩
    · rw [h1]
      refine ⟨_, if_neg (by simp), rfl, ?_⟩
      simp only [pixsizeOf]
      congr 1
      field_simp
  obtain ⟨wf', m, hok, hv⟩ := C112_map hn .library sz wf dmap hm (by rw [hr, hc]; exact ⟨h4, h4⟩) f.header b hb wf.dx hh
  refine ⟨f, wf', m, hf, by rw [hd]; exact hok, fun j i => ?_⟩
  rw [hv]
  have hy : b.YC_MAP = none := by
    have := hb.centre
    rw [hx] at this
    cases h : b.YC_MAP with
    | none => rfl
    | some y => rw [h] at this; cases this
  have key := C112_aligned n h4 wf.dx hdx dmap hm hr hc 0 j.val i.val (ZMod.val_lt j) (ZMod.val_lt i)
  rw [C112_resample .library n wf.dx dmap hm (by rw [hr, hc]; exact ⟨h4, h4⟩) wf.dx _ _ 0 0 j.val i.val (ZMod.val_lt j) (ZMod.val_lt i)] at key
  unfold centreOf
  rw [hx, hy, hr, hc, h0]
  exact congrArg (factor b * ·) key

/-- **C132 (violated: the type).** The type of the map in the file has no influence on how it is read: a map written as amplitude map and one written as wavefront map give the same result with any arguments of prop_errormap. -/
theorem C132_type_violated {n : ℕ} (be : Backend) (sz : Bool) (wf : WF n) (dmap : Cubic.Img) (a : Args) (f f' : MapFile) (b : ErrorMap.Args)
    (hf : writemap dmap { a with AMPLITUDE := true } = .ok f) (hf' : writemap dmap { a with AMPLITUDE := false, MIRROR := false } = .ok f') :
    f.maptype = "amplitude" ∧ f'.maptype = "wavefront" ∧ errormap be sz wf f.data f.header b = errormap be sz wf f'.data f'.header b := by
  unfold writemap at hf hf'
  split_ifs at hf with h1
  split_ifs at hf' with h2
  cases hf
  cases hf'
  exact ⟨rfl, rfl, rfl⟩

/-- **C132 (violated: the centre).** The centre of a map that is not square is written with its coordinates exchanged relative to FITS conventions (XC_PIX is half the number of rows), and not read: prop_readmap takes it from the shape in the same way. -/
theorem C132_centre_violated (dmap : Cubic.Img) (a : Args) (f : MapFile) (hf : writemap dmap a = .ok f) : f.xcPix = dmap.rows / 2 ∧ f.ycPix = dmap.cols / 2 := by
  unfold writemap at hf
  split_ifs at hf with h1
  cases hf
  exact ⟨rfl, rfl⟩

/-- The hypotheses are met. -/
example : Plain { WAVEFRONT := true } := ⟨rfl, Or.inr rfl, by simp, rfl, rfl, rfl⟩

end Verif.WriteMap
