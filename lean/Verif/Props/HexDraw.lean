import Verif.Model.HexDraw
import Verif.Props.Hex
import Verif.Lemmas.Util

/-!
# C135: pictures of segmented mirrors

The specification: a regular hexagon with two flats facing along the rows is the set of points within `d/2` of the centre in the three directions normal to its
flats, i.e. `hexNorm ≤ d/2`.
-/

namespace Verif.HexDraw
open Verif Verif.Hlc Verif.Util

/-- Largest distance from the centre along the normals of the flats: the row direction and the two directions 60 degrees from it. `x` is the column, `y` the row. -/
noncomputable def hexNorm (x y : ℝ) : ℝ := max |y| (max |Real.sqrt 3 / 2 * x + y / 2| |Real.sqrt 3 / 2 * x - y / 2|)

theorem hex_eq (d x y : ℝ) : hex d x y = Real.exp (-(y / (d / 2)) ^ 1000) * Real.exp (-((Real.sqrt 3 / 2 * x + y / 2) / (d / 2)) ^ 1000) * Real.exp (-((Real.sqrt 3 / 2 * x - y / 2) / (d / 2)) ^ 1000) := by
  have hn : Real.sqrt (x ^ 2 + y ^ 2) = ‖(⟨x, y⟩ : ℂ)‖ := by
    rw [Complex.norm_def, Complex.normSq_mk]; congr 1; ring
  have hc := Complex.norm_mul_cos_arg (⟨x, y⟩ : ℂ)
  have hs := Complex.norm_mul_sin_arg (⟨x, y⟩ : ℂ)
  unfold hex
  dsimp only
  rw [hn, Real.cos_sub, Real.cos_add, Real.cos_pi_div_six, Real.sin_pi_div_six]
  generalize ‖(⟨x, y⟩ : ℂ)‖ = r at *
  generalize Complex.arg (⟨x, y⟩ : ℂ) = t at *
  dsimp only at hc hs
  rw [hs, show r * (Real.cos t * (Real.sqrt 3 / 2) + Real.sin t * (1 / 2)) = Real.sqrt 3 / 2 * x + y / 2 by rw [← hc, ← hs]; ring,
    show r * (Real.cos t * (Real.sqrt 3 / 2) - Real.sin t * (1 / 2)) = Real.sqrt 3 / 2 * x - y / 2 by rw [← hc, ← hs]; ring]

theorem even_pow (t : ℝ) : t ^ 1000 = |t| ^ 1000 := ((even_two_mul 500).pow_abs t).symm

theorem strip_pos (t : ℝ) : 0 < Real.exp (-t ^ 1000) ∧ Real.exp (-t ^ 1000) ≤ 1 := by
  refine ⟨Real.exp_pos _, Real.exp_le_one_iff.mpr ?_⟩
  rw [even_pow]
  have := pow_nonneg (abs_nonneg t) 1000
  linarith

theorem strip_in (d : ℝ) (hd : 0 < d) (e t : ℝ) (h : |t| ≤ (1 - e) * (d / 2)) : 1 - (1 - e) ^ 1000 ≤ Real.exp (-(t / (d / 2)) ^ 1000) := by
  have h1 : |t / (d / 2)| ≤ 1 - e := by rw [abs_div, abs_of_pos (by linarith : 0 < d / 2), div_le_iff₀ (by linarith)]; exact h
  have h2 : |t / (d / 2)| ^ 1000 ≤ (1 - e) ^ 1000 := pow_le_pow_left₀ (abs_nonneg _) h1 _
  rw [even_pow (t / (d / 2))]
  generalize |t / (d / 2)| ^ 1000 = u at *
  generalize (1 - e) ^ 1000 = v at *
  have := Real.add_one_le_exp (-u)
  linarith

theorem strip_out (d : ℝ) (hd : 0 < d) (e t : ℝ) (he : 0 ≤ e) (h : (1 + e) * (d / 2) ≤ |t|) : Real.exp (-(t / (d / 2)) ^ 1000) ≤ Real.exp (-(1 + e) ^ 1000) := by
  have h1 : 1 + e ≤ |t / (d / 2)| := by rw [abs_div, abs_of_pos (by linarith : 0 < d / 2), le_div_iff₀ (by linarith)]; exact h
  have h2 : (1 + e) ^ 1000 ≤ |t / (d / 2)| ^ 1000 := pow_le_pow_left₀ (by linarith) h1 _
  rw [even_pow (t / (d / 2)), Real.exp_le_exp]
  exact neg_le_neg h2

/-- **C135.** The hexagon: between 0 and 1 everywhere; inside, a fraction `e` of the half width away from its flats, it is at least `1 - 3 (1 - e)^1000`; outside,
at least the fraction `e` away, it is at most `exp(-(1 + e)^1000)`. -/
theorem C135_hexagon (d x y : ℝ) (hd : 0 < d) :
    (0 < hex d x y ∧ hex d x y ≤ 1) ∧
    ∀ e, 0 ≤ e → e ≤ 1 →
      (hexNorm x y ≤ (1 - e) * (d / 2) → 1 - 3 * (1 - e) ^ 1000 ≤ hex d x y) ∧
      ((1 + e) * (d / 2) ≤ hexNorm x y → hex d x y ≤ Real.exp (-(1 + e) ^ 1000)) := by
  rw [hex_eq]
  obtain ⟨p1, q1⟩ := strip_pos (y / (d / 2))
  obtain ⟨p2, q2⟩ := strip_pos ((Real.sqrt 3 / 2 * x + y / 2) / (d / 2))
  obtain ⟨p3, q3⟩ := strip_pos ((Real.sqrt 3 / 2 * x - y / 2) / (d / 2))
  refine ⟨⟨by positivity, ?_⟩, fun e he he1 => ⟨fun h => ?_, fun h => ?_⟩⟩
  · exact mul_le_one₀ (mul_le_one₀ q1 p2.le q2) p3.le q3
  · unfold hexNorm at h
    have r1 := strip_in d hd e _ ((le_max_left _ _).trans h)
    have r2 := strip_in d hd e _ (((le_max_left _ _).trans (le_max_right _ _)).trans h)
    have r3 := strip_in d hd e _ (((le_max_right _ _).trans (le_max_right _ _)).trans h)
    have hu : 0 ≤ (1 - e) ^ 1000 := pow_nonneg (by linarith) _
    generalize (1 - e) ^ 1000 = u at *
    generalize Real.exp (-(y / (d / 2)) ^ 1000) = A at *
    generalize Real.exp (-((Real.sqrt 3 / 2 * x + y / 2) / (d / 2)) ^ 1000) = B at *
    generalize Real.exp (-((Real.sqrt 3 / 2 * x - y / 2) / (d / 2)) ^ 1000) = C at *
    have h1 : A + B - 1 ≤ A * B := by nlinarith
    have h2 : A * B + C - 1 ≤ A * B * C := by
      have : A * B ≤ 1 := mul_le_one₀ q1 p2.le q2
      nlinarith
    linarith
  · unfold hexNorm at h
    have hE : 0 ≤ Real.exp (-(1 + e) ^ 1000) := (Real.exp_pos _).le
    rcases le_max_iff.mp h with h | h
    · have r := strip_out d hd e _ he h
      calc _ ≤ Real.exp (-(y / (d / 2)) ^ 1000) * 1 * 1 := by gcongr
        _ ≤ _ := by linarith
    · rcases le_max_iff.mp h with h | h
      · have r := strip_out d hd e _ he h
        calc _ ≤ 1 * Real.exp (-((Real.sqrt 3 / 2 * x + y / 2) / (d / 2)) ^ 1000) * 1 := by gcongr
          _ ≤ _ := by linarith
      · have r := strip_out d hd e _ he h
        calc _ ≤ 1 * 1 * Real.exp (-((Real.sqrt 3 / 2 * x - y / 2) / (d / 2)) ^ 1000) := by gcongr
          _ ≤ _ := by linarith

/-! ## The mirror -/

theorem faceLoop_shift (s : ℝ) (face r : ℕ) (o : ℝ × ℝ) : ∀ (left stepnum : ℕ) (c : ℝ × ℝ),
    faceLoop s face r left stepnum (c + o) = ((faceLoop s face r left stepnum c).1 + o, (faceLoop s face r left stepnum c).2.map (· + o))
  | 0, _, c => rfl
  | left + 1, k, c => by
    have e : ((c + o).1 + (step s face).1, (c + o).2 + (step s face).2) = (c.1 + (step s face).1, c.2 + (step s face).2) + o :=
      Prod.ext (by simp only [Prod.fst_add]; ring) (by simp only [Prod.snd_add]; ring)
    simp only [faceLoop]
    rw [e, faceLoop_shift s face r o left (k + 1)]
    refine Prod.ext rfl ?_
    dsimp only
    split_ifs
    · rfl
    · rfl

theorem facesLoop_shift (s : ℝ) (r : ℕ) (o : ℝ × ℝ) : ∀ (left face : ℕ) (c : ℝ × ℝ), facesLoop s r left face (c + o) = (facesLoop s r left face c).map (· + o)
  | 0, _, _ => rfl
  | left + 1, face, c => by
    simp only [facesLoop]
    rw [faceLoop_shift, facesLoop_shift s r o left (face + 1), List.map_append]

theorem visitsAt_eq (o : ℝ × ℝ) (s : ℝ) (n : ℕ) : visitsAt o s n = (visits s n).map (· + o) := by
  unfold visitsAt visits
  rw [List.map_flatMap]
  congr 1
  funext r
  rw [List.map_cons, ← facesLoop_shift]
  rfl

theorem drawn_map (w : ℕ) (missing : List ℕ) (g : ℝ × ℝ → ℝ × ℝ) : ∀ (cs : List (ℝ × ℝ)) (k : ℕ), drawn w missing k (cs.map g) = (drawn w missing k cs).map (List.map g)
  | [], k => rfl
  | c :: cs, k => by
    rw [List.map_cons, drawn, drawn]
    rcases missing[k]? with _ | m
    · rfl
    · simp only [drawn_map w missing g cs (k + 1)]
      rcases drawn w missing (k + 1) cs with e | l
      · rfl
      · change Except.ok _ = Except.ok _
        congr 1
        split_ifs <;> rfl

theorem foldl_hex (N : ℕ) (d : ℝ) : ∀ (cs : List (ℝ × ℝ)) (A : ℕ → ℕ → ℝ) (i j : ℕ),
    cs.foldl (addHex N d) A i j = A i j + (cs.map fun c => hex d ((j : ℝ) - N / 2 - c.2) ((i : ℝ) - N / 2 - c.1)).sum
  | [], A, i, j => by simp
  | c :: cs, A, i, j => by
    rw [List.foldl_cons, foldl_hex N d cs, List.map_cons, List.sum_cons]
    unfold addHex
    ring

/-- The centres of the segments marked 1. -/
noncomputable def marked (s : ℝ) (n : ℕ) (missing : List ℕ) : List (ℝ × ℝ) := ((visits s n).zip missing).filterMap fun p => if p.2 = 1 then some p.1 else none

theorem mem_marked (s : ℝ) (n : ℕ) (missing : List ℕ) (c : ℝ × ℝ) : c ∈ marked s n missing ↔ (c, 1) ∈ (visits s n).zip missing := by
  unfold marked
  rw [List.mem_filterMap]
  constructor
  · rintro ⟨⟨a, m⟩, h1, h2⟩
    dsimp only at h2
    split_ifs at h2 with hm
    obtain rfl := Option.some.inj h2
    rwa [hm] at h1
  · intro h
    exact ⟨_, h, by simp⟩

theorem marked_sublist (missing : List ℕ) : ∀ l : List (ℝ × ℝ), ((l.zip missing).filterMap fun p => if p.2 = 1 then some p.1 else none).Sublist l := by
  induction missing with
  | nil => intro l; simp
  | cons m ms ih =>
    intro l
    cases l with
    | nil => simp
    | cons c cs =>
      rw [List.zip_cons_cons, List.filterMap_cons]
      by_cases h : m = 1
      · simp only [h, if_true]; exact (ih cs).cons_cons c
      · simp only [if_neg h]; exact (ih cs).cons c

theorem apart (s : ℝ) (hs : 0 < s) (n : ℕ) (c c' : ℝ × ℝ) (h : c ∈ visits s n) (h' : c' ∈ visits s n) (hne : c ≠ c') : s ≤ hexNorm (c'.2 - c.2) (c'.1 - c.1) := by
  obtain ⟨p, -, rfl⟩ := ((C53_segments s n).2.2.1 c).mp h
  obtain ⟨q, -, rfl⟩ := ((C53_segments s n).2.2.1 c').mp h'
  have hpq : p ≠ q := fun hh => hne (by rw [hh])
  have h3 : Real.sqrt 3 * Real.sqrt 3 = 3 := Real.mul_self_sqrt (by norm_num)
  unfold hexNorm hexPoint
  dsimp only
  have key : 2 ≤ |2 * (q.1 - p.1) + (q.2 - p.2)| ∨ 2 ≤ |(q.1 - p.1) + 2 * (q.2 - p.2)| ∨ 2 ≤ |(q.2 - p.2) - (q.1 - p.1)| := by
    by_contra hcon
    push Not at hcon
    obtain ⟨a, b, c⟩ := hcon
    rw [abs_lt] at a b c
    exact hpq (Prod.ext (by omega) (by omega))
  have cast : ∀ (k : ℤ) (t : ℝ), t = s * ((k : ℝ) / 2) → 2 ≤ |k| → s ≤ |t| := by
    intro k t ht hk
    have : (2 : ℝ) ≤ |(k : ℝ)| := by exact_mod_cast hk
    rw [ht, abs_mul, abs_of_pos hs, abs_div, abs_of_pos (by norm_num : (0 : ℝ) < 2)]
    nlinarith
  rcases key with k | k | k
  · refine (cast _ _ ?_ k).trans (le_max_left _ _)
    push_cast; ring
  · refine (cast _ _ ?_ k).trans ((le_max_left _ _).trans (le_max_right _ _))
    push_cast
    linear_combination (s * ((q.2 : ℝ) - p.2) / 4) * h3
  · refine (cast _ _ ?_ k).trans ((le_max_right _ _).trans (le_max_right _ _))
    push_cast
    linear_combination (s * ((q.2 : ℝ) - p.2) / 4) * h3

theorem hexNorm_sub (x y x' y' : ℝ) : hexNorm (x - x') (y - y') ≤ hexNorm x y + hexNorm x' y' := by
  unfold hexNorm
  have t : ∀ a b : ℝ, |a - b| ≤ |a| + |b| := fun a b => by
    have := abs_add_le a (-b)
    rwa [abs_neg, ← sub_eq_add_neg] at this
  refine max_le ?_ (max_le ?_ ?_)
  · exact (t _ _).trans (add_le_add (le_max_left _ _) (le_max_left _ _))
  · rw [show Real.sqrt 3 / 2 * (x - x') + (y - y') / 2 = (Real.sqrt 3 / 2 * x + y / 2) - (Real.sqrt 3 / 2 * x' + y' / 2) by ring]
    exact (t _ _).trans (add_le_add ((le_max_left _ _).trans (le_max_right _ _)) ((le_max_left _ _).trans (le_max_right _ _)))
  · rw [show Real.sqrt 3 / 2 * (x - x') - (y - y') / 2 = (Real.sqrt 3 / 2 * x - y / 2) - (Real.sqrt 3 / 2 * x' - y' / 2) by ring]
    exact (t _ _).trans (add_le_add ((le_max_right _ _).trans (le_max_right _ _)) ((le_max_right _ _).trans (le_max_right _ _)))

theorem sum_small (l : List (ℝ × ℝ)) (φ : ℝ × ℝ → ℝ) (E : ℝ) (h0 : ∀ c ∈ l, 0 ≤ φ c) (hE : ∀ c ∈ l, φ c ≤ E) : 0 ≤ (l.map φ).sum ∧ (l.map φ).sum ≤ l.length * E := by
  induction l with
  | nil => simp
  | cons c cs ih =>
    obtain ⟨a, b⟩ := ih (fun c hc => h0 c (List.mem_cons_of_mem _ hc)) fun c hc => hE c (List.mem_cons_of_mem _ hc)
    have h1 := h0 c List.mem_cons_self
    have h2 := hE c List.mem_cons_self
    rw [List.map_cons, List.sum_cons, List.length_cons]
    push_cast
    constructor <;> linarith

theorem support_image (apDia wGap : ℝ) (n N : ℕ) (missing : List ℕ) (hm : countSegments n ≤ missing.length) (off : ℝ × ℝ) :
    getSupport apDia wGap n N (some missing) off = .ok fun i j =>
      ((marked (flatDiam apDia wGap n + wGap) n missing).map fun c => hex (flatDiam apDia wGap n) ((j : ℝ) - N / 2 - off.2 - c.2) ((i : ℝ) - N / 2 - off.1 - c.1)).sum := by
  have hsup := (C53_support (flatDiam apDia wGap n + wGap) n missing).1 hm
  unfold support at hsup
  unfold getSupport
  dsimp only
  rw [visitsAt_eq, drawn_map, hsup]
  change Except.ok _ = Except.ok _
  congr 1
  funext i j
  dsimp only
  rw [foldl_hex, List.map_map, zero_add]
  refine congrArg List.sum (List.map_congr_left fun c _ => ?_)
  simp only [Function.comp, Prod.fst_add, Prod.snd_add]
  congr 1 <;> ring

/-- **C135.** The mirror drawn by `get_support` (segments of positive width, gap of any width from zero): at a pixel inside a segment that is marked 1, the fraction `e` of
its half width away from its flats, the value is at least `1 - 3 (1 - e)^1000` and above 1 by at most `exp(-(1 + e)^1000)` for each other segment; at a pixel at least this
far outside of all segments marked 1 it is at most `exp(-(1 + e)^1000)` for each segment. The picture is centred on pixel `N/2` plus the offset. -/
theorem C135_mirror (apDia wGap : ℝ) (n N : ℕ) (missing : List ℕ) (hm : countSegments n ≤ missing.length) (off : ℝ × ℝ) (hd : 0 < flatDiam apDia wGap n) (hg : 0 ≤ wGap) :
    ∃ OUT, getSupport apDia wGap n N (some missing) off = .ok OUT ∧ ∀ (i j : ℕ) (e : ℝ), 0 ≤ e → e ≤ 1 →
      (∀ c, (c, 1) ∈ (visits (flatDiam apDia wGap n + wGap) n).zip missing →
        hexNorm ((j : ℝ) - N / 2 - off.2 - c.2) ((i : ℝ) - N / 2 - off.1 - c.1) ≤ (1 - e) * (flatDiam apDia wGap n / 2) →
          1 - 3 * (1 - e) ^ 1000 ≤ OUT i j ∧ OUT i j ≤ 1 + (countSegments n - 1) * Real.exp (-(1 + e) ^ 1000)) ∧
      ((∀ c, (c, 1) ∈ (visits (flatDiam apDia wGap n + wGap) n).zip missing →
        (1 + e) * (flatDiam apDia wGap n / 2) ≤ hexNorm ((j : ℝ) - N / 2 - off.2 - c.2) ((i : ℝ) - N / 2 - off.1 - c.1)) →
          0 ≤ OUT i j ∧ OUT i j ≤ countSegments n * Real.exp (-(1 + e) ^ 1000)) := by
  set d := flatDiam apDia wGap n with hdd
  set s := d + wGap with hs
  have hs0 : 0 < s := by linarith
  refine ⟨_, support_image apDia wGap n N missing hm off, fun i j e he he1 => ?_⟩
  rw [← hdd, ← hs]
  set φ : ℝ × ℝ → ℝ := fun c => hex d ((j : ℝ) - N / 2 - off.2 - c.2) ((i : ℝ) - N / 2 - off.1 - c.1) with hφ
  have hsub : (marked s n missing).Sublist (visits s n) := marked_sublist missing _
  have hlen : (marked s n missing).length ≤ countSegments n := by rw [← (C53_segments s n).2.1]; exact hsub.length_le
  have hnd : (marked s n missing).Nodup := hsub.nodup ((C53_segments s n).2.2.2 hs0.ne')
  have hE := (Real.exp_pos (-(1 + e) ^ 1000)).le
  have hφ0 : ∀ c, 0 ≤ φ c := fun c => (C135_hexagon d _ _ hd).1.1.le
  constructor
  · intro c hc hin
    rw [← mem_marked] at hc
    have hperm := List.perm_cons_erase hc
    have hsum : ((marked s n missing).map φ).sum = φ c + (((marked s n missing).erase c).map φ).sum := by
      rw [(hperm.map φ).sum_eq, List.map_cons, List.sum_cons]
    have hrest : ∀ c' ∈ (marked s n missing).erase c, φ c' ≤ Real.exp (-(1 + e) ^ 1000) := by
      intro c' hc'
      rw [hnd.mem_erase_iff] at hc'
      refine ((C135_hexagon d _ _ hd).2 e he he1).2 ?_
      have h1 := apart s hs0 n c' c (hsub.subset hc'.2) (hsub.subset hc) hc'.1
      have h2 := hexNorm_sub ((j : ℝ) - N / 2 - off.2 - c'.2) ((i : ℝ) - N / 2 - off.1 - c'.1) ((j : ℝ) - N / 2 - off.2 - c.2) ((i : ℝ) - N / 2 - off.1 - c.1)
      rw [show (j : ℝ) - N / 2 - off.2 - c'.2 - ((j : ℝ) - N / 2 - off.2 - c.2) = c.2 - c'.2 by ring, show (i : ℝ) - N / 2 - off.1 - c'.1 - ((i : ℝ) - N / 2 - off.1 - c.1) = c.1 - c'.1 by ring] at h2
      nlinarith
    obtain ⟨s1, s2⟩ := sum_small _ φ _ (fun c' _ => hφ0 c') hrest
    have hin' := ((C135_hexagon d _ _ hd).2 e he he1).1 hin
    have hle := (C135_hexagon d ((j : ℝ) - N / 2 - off.2 - c.2) ((i : ℝ) - N / 2 - off.1 - c.1) hd).1.2
    have hl : (((marked s n missing).erase c).length : ℝ) ≤ countSegments n - 1 := by
      have h1 := List.length_erase_of_mem hc
      have h2 := List.length_pos_of_mem hc
      have : ((marked s n missing).erase c).length + 1 ≤ countSegments n := by omega
      have : (((marked s n missing).erase c).length : ℝ) + 1 ≤ countSegments n := by exact_mod_cast this
      linarith
    have := mul_le_mul_of_nonneg_right hl hE
    rw [hsum]
    constructor
    · exact hin'.trans (by linarith)
    · have : φ c ≤ 1 := hle
      linarith
  · intro hout
    obtain ⟨s1, s2⟩ := sum_small (marked s n missing) φ (Real.exp (-(1 + e) ^ 1000)) (fun c' _ => hφ0 c')
      fun c hc => ((C135_hexagon d _ _ hd).2 e he he1).2 (hout c ((mem_marked _ _ _ _).mp hc))
    refine ⟨s1, s2.trans ?_⟩
    have : ((marked s n missing).length : ℝ) ≤ countSegments n := by exact_mod_cast hlen
    exact mul_le_mul_of_nonneg_right this hE

/-- **C135.** The size is right: along the rows the outermost segments end half the diameter from the centre, and a list too short is refused (IndexError); without a list all segments are drawn. -/
theorem C135_size (apDia wGap : ℝ) (n N : ℕ) (off : ℝ × ℝ) :
    (n : ℝ) * (flatDiam apDia wGap n + wGap) + flatDiam apDia wGap n / 2 = apDia / 2 ∧
    (∀ missing : List ℕ, missing.length < countSegments n → getSupport apDia wGap n N (some missing) off = .error .indexError) ∧
    getSupport apDia wGap n N none off = getSupport apDia wGap n N (some (List.replicate (countSegments n) 1)) off := by
  refine ⟨?_, fun missing h => ?_, rfl⟩
  · have : (2 * (n : ℝ) + 1) ≠ 0 := by positivity
    unfold flatDiam
    field_simp
    ring
  · have := (C53_support (flatDiam apDia wGap n + wGap) n missing).2.1 h
    unfold support at this
    unfold getSupport
    dsimp only
    rw [visitsAt_eq, drawn_map, this]
    rfl

theorem drawn_swap (missing : List ℕ) : ∀ (cs : List (ℝ × ℝ)) (k : ℕ), drawn 0 missing k cs = drawn 1 (missing.map fun m => if m = 0 then 1 else 0) k cs
  | [], k => rfl
  | c :: cs, k => by
    rw [drawn, drawn, List.getElem?_map]
    rcases missing[k]? with _ | m
    · rfl
    · simp only [drawn_swap missing cs (k + 1), Option.map_some]
      by_cases h : m = 0 <;> simp [h]

/-- **C135, violated.** `get_field` should return the complex reflectance with the given pistons and tilts; it returns the real picture of the segments marked 0 (those
`get_support` leaves out), the same for all pistons and tilts, cut to the smallest power of two that is at least the diameter (even grids; `1 < apDia`). -/
theorem C135_field_violated (apDia wGap : ℝ) (h1 : 1 < apDia) (n N : ℕ) (hN : N % 2 = 0) (hN0 : 0 < N) (pistons tiltxs tiltys : List ℝ) (missing : List ℕ) (hm : countSegments n ≤ missing.length) :
    ∃ F OUT, getField apDia wGap n N pistons tiltxs tiltys (some missing) = .ok F ∧ F.h = N ∧ F.w = N ∧
      getSupport apDia wGap n N (some (missing.map fun m => if m = 0 then 1 else 0)) (0, 0) = .ok OUT ∧
      ∀ i j : ℕ, i < N → j < N → F.get? i j = some
        (if (|(i : ℤ) - (N / 2 : ℕ)| < 2 ^ (nextpow2 apDia).toNat / 2 ∨ (i : ℤ) - (N / 2 : ℕ) = -(2 ^ (nextpow2 apDia).toNat / 2)) ∧
            (|(j : ℤ) - (N / 2 : ℕ)| < 2 ^ (nextpow2 apDia).toNat / 2 ∨ (j : ℤ) - (N / 2 : ℕ) = -(2 ^ (nextpow2 apDia).toNat / 2)) then OUT i j else 0) := by
  set d := flatDiam apDia wGap n with hd
  set M := 2 ^ (nextpow2 apDia).toNat with hM
  have hp : 0 < nextpow2 apDia := by
    unfold nextpow2
    rw [if_neg (by linarith), Int.ceil_pos, abs_of_pos (by linarith)]
    exact Real.logb_pos (by norm_num) h1
  have hM2 : M % 2 = 0 := by
    obtain ⟨k, hk⟩ : ∃ k, (nextpow2 apDia).toNat = k + 1 := ⟨(nextpow2 apDia).toNat - 1, by omega⟩
    rw [hM, hk, pow_succ]; omega
  have hM0 : 0 < M := by rw [hM]; positivity
  set missing' := missing.map fun m => if m = 0 then 1 else 0 with hm'
  have hlen : countSegments n ≤ missing'.length := by rw [hm', List.length_map]; exact hm
  have hsup := (C53_support (d + wGap) n missing').1 hlen
  unfold support at hsup
  rw [Option.getD_some] at hsup
  set cs := marked (d + wGap) n missing' with hcs
  change _ = Except.ok cs at hsup
  obtain ⟨B, hB, hh, hw, hget⟩ := padCropCore_spec (⟨M, M, fun i j => cs.foldl (addHex M d) (fun _ _ => 0) i.val j.val⟩ : Img ℝ) N N 0
  refine ⟨B, _, ?_, hh, hw, support_image apDia wGap n N missing' hlen (0, 0), ?_⟩
  · unfold getField
    dsimp only
    rw [← hd, ← hM, Option.getD_some, drawn_swap, ← hm', hsup]
    change padCrop _ _ _ = _
    unfold padCrop
    have : resolveOutsize (.one (.int (N : ℤ))) = .ok (N, N) := by
      unfold resolveOutsize
      dsimp only
      rw [if_neg (by omega)]
      simp
    rw [this]
    exact hB
  · intro i j hi hj
    rw [hget i j (by omega) (by omega) (by omega) (by omega)]
    congr 1
    dsimp only
    have hMz : ((2 ^ (nextpow2 apDia).toNat : ℤ)) = (M : ℤ) := by rw [hM]; push_cast; rfl
    rw [hMz]
    by_cases hin : (|(i : ℤ) - (N / 2 : ℕ)| < (M : ℤ) / 2 ∨ (i : ℤ) - (N / 2 : ℕ) = -((M : ℤ) / 2)) ∧ (|(j : ℤ) - (N / 2 : ℕ)| < (M : ℤ) / 2 ∨ (j : ℤ) - (N / 2 : ℕ) = -((M : ℤ) / 2))
    · rw [if_pos hin]
      have ci : 0 ≤ ((M / 2 : ℕ) : ℤ) + ((i : ℤ) - (N / 2 : ℕ)) ∧ ((M / 2 : ℕ) : ℤ) + ((i : ℤ) - (N / 2 : ℕ)) < M := by
        rcases hin.1 with h | h
        · rw [abs_lt] at h; omega
        · omega
      have cj : 0 ≤ ((M / 2 : ℕ) : ℤ) + ((j : ℤ) - (N / 2 : ℕ)) ∧ ((M / 2 : ℕ) : ℤ) + ((j : ℤ) - (N / 2 : ℕ)) < M := by
        rcases hin.2 with h | h
        · rw [abs_lt] at h; omega
        · omega
      rw [Img.get?_eq_some ⟨ci.1, ci.2⟩ ⟨cj.1, cj.2⟩, Option.getD_some]
      dsimp only
      rw [foldl_hex, zero_add]
      have cast : ∀ k : ℕ, 0 ≤ ((M / 2 : ℕ) : ℤ) + ((k : ℤ) - (N / 2 : ℕ)) → ((((M / 2 : ℕ) : ℤ) + ((k : ℤ) - (N / 2 : ℕ))).toNat : ℝ) - M / 2 = (k : ℝ) - N / 2 - 0 := by
        intro k hk
        have e1 : ((((M / 2 : ℕ) : ℤ) + ((k : ℤ) - (N / 2 : ℕ))).toNat : ℤ) = ((M / 2 : ℕ) : ℤ) + ((k : ℤ) - (N / 2 : ℕ)) := Int.toNat_of_nonneg hk
        have e2 : ((((M / 2 : ℕ) : ℤ) + ((k : ℤ) - (N / 2 : ℕ))).toNat : ℝ) = ((M / 2 : ℕ) : ℝ) + ((k : ℝ) - ((N / 2 : ℕ) : ℝ)) := by
          have e0 := congrArg (fun z : ℤ => (z : ℝ)) e1
          simpa only [Int.cast_add, Int.cast_sub, Int.cast_natCast] using e0
        have e3 : ((M / 2 : ℕ) : ℝ) = (M : ℝ) / 2 := Nat.cast_div_charZero (Nat.dvd_of_mod_eq_zero hM2)
        have e4 : ((N / 2 : ℕ) : ℝ) = (N : ℝ) / 2 := Nat.cast_div_charZero (Nat.dvd_of_mod_eq_zero hN)
        rw [e2, e3, e4]; ring
      rw [cast i ci.1, cast j cj.1]
    · rw [if_neg hin, Img.get?_eq_none]
      · rfl
      · dsimp only
        intro hc
        apply hin
        constructor
        · by_cases h : (i : ℤ) - (N / 2 : ℕ) = -((M : ℤ) / 2)
          · exact Or.inr h
          · left; rw [abs_lt]; omega
        · by_cases h : (j : ℤ) - (N / 2 : ℕ) = -((M : ℤ) / 2)
          · exact Or.inr h
          · left; rw [abs_lt]; omega

/-- **C135, violated.** Without `missingSegments` the field is zero everywhere, whatever the mirror. -/
theorem C135_field_empty_violated (apDia wGap : ℝ) (n N : ℕ) (hN0 : 0 < N) (pistons tiltxs tiltys : List ℝ) :
    ∃ F, getField apDia wGap n N pistons tiltxs tiltys none = .ok F ∧ F.h = N ∧ F.w = N ∧ ∀ i j : ℕ, i < N → j < N → F.get? i j = some 0 := by
  have hf := (C53_field_violated (flatDiam apDia wGap n + wGap) n (List.replicate (countSegments n) 1) (by simp)).2
  unfold field at hf
  obtain ⟨B, hB, hh, hw, hget⟩ := padCropCore_spec (⟨2 ^ (nextpow2 apDia).toNat, 2 ^ (nextpow2 apDia).toNat, fun i j => ([] : List (ℝ × ℝ)).foldl (addHex (2 ^ (nextpow2 apDia).toNat) (flatDiam apDia wGap n)) (fun _ _ => 0) i.val j.val⟩ : Img ℝ) N N 0
  refine ⟨B, ?_, hh, hw, fun i j hi hj => ?_⟩
  · unfold getField
    dsimp only
    rw [hf]
    change padCrop _ _ _ = _
    unfold padCrop
    have : resolveOutsize (.one (.int (N : ℤ))) = .ok (N, N) := by
      unfold resolveOutsize
      dsimp only
      rw [if_neg (by omega)]
      simp
    rw [this]
    exact hB
  · rw [hget i j (by omega) (by omega) (by omega) (by omega)]
    congr 1
    unfold Img.get?
    dsimp only
    split_ifs <;> rfl

/-- Non-vacuity of C135: three rings, 100 pixels across, gaps of 1 pixel: segments 94/7 pixels wide. -/
example : 0 < flatDiam 100 1 3 ∧ flatDiam 100 1 3 = 94 / 7 ∧ (0 : ℝ) ≤ 1 ∧ countSegments 3 ≤ (List.replicate 37 1).length := by
  refine ⟨?_, ?_, by norm_num, by decide⟩
  · unfold flatDiam; norm_num
  · unfold flatDiam; norm_num

end Verif.HexDraw
