import Verif.Model.ProperTable
import Verif.Props.Proper

/-!
# C157: the table of a PROPER prescription
-/

namespace Verif.ProperTable
open Verif Verif.Proper

variable {n : ℕ} [NeZero n]

/-! ### Specification -/

/-- The calls the documentation of TABLE speaks of ("sampling and beam size for each surface"): lenses and propagations. -/
def Surf : TOp n → Bool
  | .lens .. => true
  | .propagate .. => true
  | _ => false

/-- No second prop_begin. -/
def NoBegin (ops : List (TOp n)) : Prop := ∀ k d l f, TOp.begin k d l f ∉ ops

/-- Names of plain characters (ASCII without NUL). -/
def Plain (nm : List Char) : Prop := ∀ c ∈ nm, 0 < c.toNat ∧ c.toNat < 128

/-- All surface names in the prescription are plain. -/
def PlainNames (ops : List (TOp n)) : Prop := (∀ k fl nm, TOp.lens k fl nm ∈ ops → Plain nm) ∧ ∀ k dz tp nm, TOp.propagate k dz tp nm ∈ ops → Plain nm

/-- What stands in the column of names for a surface called `nm`: 25 characters of it, wrapped in `b'...'`, in a field of 12. -/
def Cell (nm : List Char) (c : List Char) : Prop := ∃ pad, (∀ x ∈ pad, x = ' ') ∧ c = ['b', '\''] ++ nm.take 25 ++ ['\''] ++ pad ∧ c.length = max 12 (min 25 nm.length + 3)

/-- Radius of the Gaussian beam at the wavefront's position: `w0 √(1 + ((z - z_w0)/z_R)²)`, `z_R = π w0²/λ`. -/
noncomputable def gaussRadius (s : WF n) : ℝ := s.w0 * Real.sqrt (1 + ((s.z - s.zw0) / (Real.pi * s.w0 ^ 2 / s.lam)) ^ 2)

/-! ### Lemmas -/

theorem trun_append (table po : Bool) (y : Sys n) (a b : List (TOp n)) :
    trun table po y (a ++ b) = match trun table po y a with | .error e => .error e | .ok z => trun table po z b := by
  induction a generalizing y with
  | nil => rfl
  | cons o a ih =>
    simp only [List.cons_append, trun]
    cases tstep table po y o with
    | error e => rfl
    | ok z => exact ih z

theorem trun_split {table po : Bool} {y z : Sys n} {a b : List (TOp n)} (h : trun table po y (a ++ b) = .ok z) :
    ∃ m, trun table po y a = .ok m ∧ trun table po m b = .ok z := by
  rw [trun_append] at h
  cases ha : trun table po y a with
  | error e => rw [ha] at h; cases h
  | ok m => rw [ha] at h; exact ⟨m, rfl, h⟩

theorem trun_single {table po : Bool} {y z : Sys n} {o : TOp n} : trun table po y [o] = .ok z ↔ tstep table po y o = .ok z := by
  simp only [trun]
  cases tstep table po y o <;> simp

theorem beamRadius_eq (s : WF n) : beamRadius s = gaussRadius s := by
  unfold beamRadius gaussRadius
  rw [div_div_eq_mul_div, mul_comm s.lam]

theorem wAt_eq (s : WF n) : wAt s = gaussRadius s := rfl

theorem encode_plain {nm : List Char} (h : Plain nm) : encode nm = .ok (nm.take 25) := by
  have h1 : nm.all (fun c => c.toNat < 128) = true := by
    rw [List.all_eq_true]; intro c hc; simpa using (h c hc).2
  have h2 : (nm.take 25).reverse.dropWhile (fun c => c.toNat == 0) = (nm.take 25).reverse := by
    cases hr : (nm.take 25).reverse with
    | nil => rfl
    | cons c t =>
      have hc : c ∈ nm := by
        have : c ∈ (nm.take 25).reverse := by rw [hr]; simp
        exact List.mem_of_mem_take (List.mem_reverse.mp this)
      have := (h c hc).1
      rw [List.dropWhile_cons_of_neg]
      simp; omega
  unfold encode
  rw [if_pos h1, h2, List.reverse_reverse]

theorem encode_bad {nm : List Char} {c : Char} (hc : c ∈ nm) (h : 128 ≤ c.toNat) : encode nm = .error .valueError := by
  unfold encode
  rw [if_neg]
  rw [List.all_eq_true]
  intro hall
  have := hall c hc
  simp at this; omega

theorem shown_cell (nm : List Char) : Cell nm (shown (nm.take 25)) := by
  refine ⟨List.replicate (12 - ('b' :: '\'' :: nm.take 25 ++ ['\'']).length) ' ', ?_, ?_, ?_⟩
  · intro x hx; exact (List.mem_replicate.mp hx).2
  · simp [shown]
  · simp only [shown, List.length_append, List.length_cons, List.length_replicate, List.length_take, List.length_nil]
    omega

theorem record_ok {t t' : Tab} {nm dflt : List Char} {f : Row → Row} (h : record t nm dflt f = .ok t') :
    ∃ r b, t.rows[t.num]? = some r ∧ encode (if nm = [] then dflt else nm) = .ok b ∧ t' = ⟨t.rows.set t.num { f r with name := b }, t.num + 1⟩ := by
  unfold record at h
  cases hr : t.rows[t.num]? with
  | none => simp [hr] at h
  | some r =>
    simp only [hr] at h
    cases hb : encode (if nm = [] then dflt else nm) with
    | error e => simp [hb] at h
    | ok b => simp only [hb, Except.ok.injEq] at h; exact ⟨r, b, rfl, rfl, h.symm⟩

/-- A successful lens call. -/
theorem tstep_lens {table po : Bool} {y z : Sys n} {k : ℕ} {fl : ℝ} {nm : List Char} (h : tstep table po y (.lens k fl nm) = .ok z) :
    ∃ s s', y.wfs k = some s ∧ Proper.lens s fl = .ok s' ∧ z.wfs = Function.update y.wfs k (some s') ∧
      (if table then record y.tab nm "(LENS)".toList (lensRow s s' fl) = .ok z.tab else z.tab = y.tab) := by
  simp only [tstep] at h
  cases hs : y.wfs k with
  | none => simp [hs] at h
  | some s =>
    simp only [hs] at h
    cases hl : Proper.lens s fl with
    | error e => simp [hl] at h
    | ok s' =>
      simp only [hl] at h
      refine ⟨s, s', rfl, hl, ?_⟩
      cases table with
      | false => simp only [Bool.false_eq_true, if_false, Except.ok.injEq] at h ⊢; subst h; exact ⟨rfl, rfl⟩
      | true =>
        rw [if_pos rfl] at h ⊢
        cases hr : record y.tab nm "(LENS)".toList (lensRow s s' fl) with
        | error e => rw [hr] at h; cases h
        | ok t => rw [hr] at h; cases h; exact ⟨rfl, rfl⟩

/-- A successful propagation. -/
theorem tstep_prop {table po : Bool} {y z : Sys n} {k : ℕ} {dz : ℝ} {tp : Bool} {nm : List Char} (h : tstep table po y (.propagate k dz tp nm) = .ok z) :
    ∃ s s', y.wfs k = some s ∧ Proper.propagate po s dz tp = .ok s' ∧ z.wfs = Function.update y.wfs k (some s') ∧
      (if table then record y.tab nm "(SURFACE)".toList (propRow s' dz) = .ok z.tab else z.tab = y.tab) := by
  simp only [tstep] at h
  cases hs : y.wfs k with
  | none => simp [hs] at h
  | some s =>
    simp only [hs] at h
    cases hl : Proper.propagate po s dz tp with
    | error e => simp [hl] at h
    | ok s' =>
      simp only [hl] at h
      refine ⟨s, s', rfl, hl, ?_⟩
      cases table with
      | false => simp only [Bool.false_eq_true, if_false, Except.ok.injEq] at h ⊢; subst h; exact ⟨rfl, rfl⟩
      | true =>
        rw [if_pos rfl] at h ⊢
        cases hr : record y.tab nm "(SURFACE)".toList (propRow s' dz) with
        | error e => rw [hr] at h; cases h
        | ok t => rw [hr] at h; cases h; exact ⟨rfl, rfl⟩

/-- How a run without prop_begin changes the table. -/
structure Grown (t t' : Tab) (c : ℕ) : Prop where
  num : t'.num = t.num + c
  len : t'.rows.length = t.rows.length
  before : ∀ i, i < t.num → t'.rows[i]? = t.rows[i]?
  after : ∀ i, t'.num ≤ i → t'.rows[i]? = t.rows[i]?
  fits : c = 0 ∨ t'.num ≤ t.rows.length

theorem Grown.refl (t : Tab) : Grown t t 0 := ⟨rfl, rfl, fun _ _ => rfl, fun _ _ => rfl, Or.inl rfl⟩

theorem Grown.trans {t t' t'' : Tab} {c d : ℕ} (h : Grown t t' c) (g : Grown t' t'' d) : Grown t t'' (c + d) := by
  refine ⟨by rw [g.num, h.num]; omega, by rw [g.len, h.len], fun i hi => ?_, fun i hi => ?_, ?_⟩
  · rw [g.before i (by rw [h.num]; omega), h.before i hi]
  · rw [g.after i hi, h.after i (by have := g.num; omega)]
  · have h1 := h.fits; have h2 := g.fits; have h3 := h.len; have h4 := g.num
    rcases h1 with h1 | h1 <;> rcases h2 with h2 | h2 <;> omega

theorem record_grown {t t' : Tab} {nm dflt : List Char} {f : Row → Row} (h : record t nm dflt f = .ok t') : Grown t t' 1 := by
  obtain ⟨r, b, hr, -, rfl⟩ := record_ok h
  refine ⟨rfl, by simp, fun i hi => ?_, fun i hi => ?_, Or.inr ?_⟩
  · simp only [List.getElem?_set]; rw [if_neg (by omega)]
  · simp only at hi; simp only [List.getElem?_set]; rw [if_neg (by omega)]
  · obtain ⟨h1, -⟩ := List.getElem?_eq_some_iff.mp hr
    simpa using h1

theorem tstep_grown {po : Bool} {y z : Sys n} {o : TOp n} (ho : ∀ k d l f, o ≠ TOp.begin k d l f) (h : tstep true po y o = .ok z) : Grown y.tab z.tab (if Surf o then 1 else 0) := by
  cases o with
  | begin k d l f => exact absurd rfl (ho k d l f)
  | lens k fl nm =>
    obtain ⟨s, s', -, -, -, hr⟩ := tstep_lens h
    exact record_grown hr
  | propagate k dz tp nm =>
    obtain ⟨s, s', -, -, -, hr⟩ := tstep_prop h
    exact record_grown hr
  | addPhase k ph =>
    simp only [tstep] at h
    cases hs : y.wfs k with
    | none => simp [hs] at h
    | some s => simp only [hs, Except.ok.injEq] at h; subst h; exact Grown.refl _

theorem trun_grown {po : Bool} {y z : Sys n} {ops : List (TOp n)} (ho : NoBegin ops) (h : trun true po y ops = .ok z) : Grown y.tab z.tab (ops.countP Surf) := by
  induction ops generalizing y with
  | nil => simp only [trun, Except.ok.injEq] at h; subst h; exact Grown.refl _
  | cons o os ih =>
    simp only [trun] at h
    cases hs : tstep true po y o with
    | error e => simp [hs] at h
    | ok m =>
      simp only [hs] at h
      have g1 := tstep_grown (fun k d l f e => ho k d l f (by rw [e]; simp)) hs
      have g2 := ih (fun k d l f hm => ho k d l f (List.mem_cons_of_mem _ hm)) h
      have := g1.trans g2
      rw [List.countP_cons, Nat.add_comm]
      exact this

theorem lens_zero (s : WF n) : ∃ e, Proper.lens s 0 = .error e := by
  have : ∀ s' : WF n, lensPhase s s' 0 = .error .zeroDivision := by
    intro s'
    unfold lensPhase lensCurv pyInv
    dsimp only
    cases s.inside <;> cases decide (|s'.zw0 - s'.z| < s'.zR) <;> simp [bind, Except.bind]
  refine ⟨.zeroDivision, ?_⟩
  unfold Proper.lens
  simp only [this]
  rfl

theorem lens_fl_ne {s s' : WF n} {fl : ℝ} (h : Proper.lens s fl = .ok s') : fl ≠ 0 := by
  rintro rfl
  obtain ⟨e, he⟩ := lens_zero s
  rw [he] at h; cases h

/-- After prop_begin with the table on. -/
theorem begin_run {po : Bool} {y z : Sys n} {k : ℕ} {d l f : ℝ} {ops : List (TOp n)} (h : trun true po y (.begin k d l f :: ops) = .ok z) :
    ∃ y0 : Sys n, y0.tab = ⟨List.replicate 1500 zeroRow, 0⟩ ∧ y0.wfs = Function.update y.wfs k (some (begin_ n d l f)) ∧ trun true po y0 ops = .ok z := by
  simp only [trun, tstep, if_true] at h
  exact ⟨_, rfl, rfl, h⟩

theorem print_get {t : Tab} {i : ℕ} {r : Row} (hi : i < t.num) (hr : t.rows[i]? = some r) : (printTable n t)[i]? = some (line n r) := by
  unfold printTable
  rw [List.getElem?_map, List.getElem?_take_of_lt hi, hr]
  rfl

theorem line_lens (m : ℕ) (r : Row) (h : r.fl ≠ 0) : line m r = .lens (shown r.name) r.dist r.samp r.beam (m * r.samp) r.fl r.fratio := by
  unfold line; rw [if_pos h]

/-- The row of a surface of a prescription that starts with prop_begin. -/
theorem row_at {po : Bool} {y z : Sys n} {k : ℕ} {d l f : ℝ} {pre post : List (TOp n)} {o : TOp n} (hb : NoBegin (pre ++ o :: post)) (ho : Surf o = true)
    (h : trun true po y (.begin k d l f :: (pre ++ o :: post)) = .ok z) :
    ∃ a b : Sys n, trun true po y (.begin k d l f :: pre) = .ok a ∧ tstep true po a o = .ok b ∧ a.tab.rows[a.tab.num]? = some zeroRow ∧ a.tab.num = pre.countP Surf ∧
      pre.countP Surf < z.tab.num ∧ z.tab.rows[pre.countP Surf]? = b.tab.rows[pre.countP Surf]? := by
  have hpre : NoBegin pre := fun k d l f hm => hb k d l f (List.mem_append_left _ hm)
  have hpost : NoBegin post := fun k d l f hm => hb k d l f (List.mem_append_right _ (List.mem_cons_of_mem _ hm))
  have hon : ∀ k d l f, o ≠ TOp.begin k d l f := fun k d l f e => hb k d l f (by rw [e]; simp)
  rw [← List.cons_append] at h
  obtain ⟨a, h1, h2⟩ := trun_split h
  rw [show o :: post = [o] ++ post from rfl] at h2
  obtain ⟨b, h3, h4⟩ := trun_split h2
  rw [trun_single] at h3
  obtain ⟨y0, e0, -, e1⟩ := begin_run h1
  have g1 := trun_grown hpre e1
  have g2 := tstep_grown hon h3
  have g3 := trun_grown hpost h4
  rw [e0] at g1
  have n1 := g1.num
  simp only [Nat.zero_add] at n1
  have n2 := g2.num
  rw [ho, if_pos rfl] at n2 g2
  have n3 := g3.num
  have hfit : b.tab.num ≤ 1500 := by
    rcases g2.fits with h | h
    · omega
    · rw [g1.len] at h; exact h.trans (le_of_eq List.length_replicate)
  refine ⟨a, b, h1, h3, ?_, n1, by omega, ?_⟩
  · rw [g1.after _ le_rfl, List.getElem?_replicate, if_pos (by omega)]
  · exact g3.before _ (by omega)

/-! ### Theorems -/

/-- C157: with TABLE, a prescription that calls prop_begin and then any sequence of other calls prints one line per lens and per propagation made since that prop_begin; there are never more
than 1500. -/
theorem C157_number {po : Bool} {y z : Sys n} {k : ℕ} {d l f : ℝ} {ops : List (TOp n)} (hb : NoBegin ops) (h : trun true po y (.begin k d l f :: ops) = .ok z) :
    (printTable n z.tab).length = ops.countP Surf ∧ ops.countP Surf ≤ 1500 := by
  obtain ⟨y0, e0, -, e1⟩ := begin_run h
  have g := trun_grown hb e1
  have hn := g.num
  have hl := g.len
  have hf := g.fits
  have e2 : y0.tab.rows.length = 1500 := by rw [e0]; exact List.length_replicate
  have e3 : y0.tab.num = 0 := by rw [e0]
  rw [e3, Nat.zero_add] at hn
  rw [e2] at hl hf
  have h15 : ops.countP Surf ≤ 1500 := by rcases hf with h | h <;> omega
  refine ⟨?_, h15⟩
  unfold printTable
  rw [List.length_map, List.length_take, hl, hn]
  omega

/-- C157: the line of a lens: the number of surfaces in front of it is its index; the line is marked as a lens and gives the sampling behind the lens, the diameter of the Gaussian beam at the
lens, the width of the grid, the focal length passed and the distance to the new waist over the diameter of the beam. The distance is 0. -/
theorem C157_lens_line {po : Bool} {y z : Sys n} {k0 : ℕ} {d l f : ℝ} {pre post : List (TOp n)} {k : ℕ} {fl : ℝ} {nm : List Char}
    (hb : NoBegin (pre ++ .lens k fl nm :: post)) (hp : Plain nm) (h : trun true po y (.begin k0 d l f :: (pre ++ .lens k fl nm :: post)) = .ok z) :
    ∃ (a : Sys n) (s s' : WF n) (c : List Char), trun true po y (.begin k0 d l f :: pre) = .ok a ∧ a.wfs k = some s ∧ Proper.lens s fl = .ok s' ∧
      Cell (if nm = [] then "(LENS)".toList else nm) c ∧
      (printTable n z.tab)[pre.countP Surf]? =
        some (.lens c 0 s'.dx (2 * gaussRadius s) (n * s'.dx) fl (|s'.zw0 - s'.z| / (2 * gaussRadius s))) := by
  obtain ⟨a, b, h1, h2, h3, h4, h5, h6⟩ := row_at hb rfl h
  obtain ⟨s, s', hs, hl, -, hr⟩ := tstep_lens h2
  simp only [if_true] at hr
  obtain ⟨r, bn, e1, e2, e3⟩ := record_ok hr
  rw [h3, Option.some.injEq] at e1
  subst e1
  have hp' : Plain (if nm = [] then "(LENS)".toList else nm) := by
    split_ifs
    · intro c hc; revert c; decide
    · exact hp
  rw [encode_plain hp', Except.ok.injEq] at e2
  have hlt : a.tab.num < a.tab.rows.length := (List.getElem?_eq_some_iff.mp h3).1
  have hrow : z.tab.rows[pre.countP Surf]? = some { lensRow s s' fl zeroRow with name := bn } := by
    rw [h6, e3, ← h4]
    rw [List.getElem?_set, if_pos rfl, if_pos hlt]
  refine ⟨a, s, s', shown bn, h1, hs, hl, e2 ▸ shown_cell _, ?_⟩
  rw [print_get h5 hrow]
  rw [line_lens _ _ (show fl ≠ 0 from lens_fl_ne hl)]
  rfl

/-- C157: the line of a propagation: marked as a surface; the distance is the one passed, the sampling that of the wavefront after the propagation. The entry under "beam diameter" is the
RADIUS of the Gaussian beam there. -/
theorem C157_propagate_line {po : Bool} {y z : Sys n} {k0 : ℕ} {d l f : ℝ} {pre post : List (TOp n)} {k : ℕ} {dz : ℝ} {tp : Bool} {nm : List Char}
    (hb : NoBegin (pre ++ .propagate k dz tp nm :: post)) (hp : Plain nm) (h : trun true po y (.begin k0 d l f :: (pre ++ .propagate k dz tp nm :: post)) = .ok z) :
    ∃ (a : Sys n) (s s' : WF n) (c : List Char), trun true po y (.begin k0 d l f :: pre) = .ok a ∧ a.wfs k = some s ∧ Proper.propagate po s dz tp = .ok s' ∧
      Cell (if nm = [] then "(SURFACE)".toList else nm) c ∧
      (printTable n z.tab)[pre.countP Surf]? = some (.surface c dz s'.dx (gaussRadius s') (n * s'.dx)) := by
  obtain ⟨a, b, h1, h2, h3, h4, h5, h6⟩ := row_at hb rfl h
  obtain ⟨s, s', hs, hl, -, hr⟩ := tstep_prop h2
  simp only [if_true] at hr
  obtain ⟨r, bn, e1, e2, e3⟩ := record_ok hr
  rw [h3, Option.some.injEq] at e1
  subst e1
  have hp' : Plain (if nm = [] then "(SURFACE)".toList else nm) := by
    split_ifs
    · intro c hc; revert c; decide
    · exact hp
  rw [encode_plain hp', Except.ok.injEq] at e2
  have hlt : a.tab.num < a.tab.rows.length := (List.getElem?_eq_some_iff.mp h3).1
  have hrow : z.tab.rows[pre.countP Surf]? = some { propRow s' dz zeroRow with name := bn } := by
    rw [h6, e3, ← h4]
    rw [List.getElem?_set, if_pos rfl, if_pos hlt]
  refine ⟨a, s, s', shown bn, h1, hs, hl, e2 ▸ shown_cell _, ?_⟩
  rw [print_get h5 hrow]
  unfold line
  rw [if_neg (by simp [propRow, zeroRow])]
  simp only [propRow, zeroRow, one_mul, beamRadius_eq]

/-- C157, the failing case: a lens placed where a propagation ended stands on the next line, and the two lines give two diameters of the same beam at the same place: that of the propagation
is half of that of the lens. -/
theorem C157_beam_diameter_violated {po : Bool} {y z : Sys n} {k0 : ℕ} {d l f : ℝ} {pre post : List (TOp n)} {k : ℕ} {dz fl : ℝ} {tp : Bool} {nm nm' : List Char}
    (hb : NoBegin (pre ++ .propagate k dz tp nm :: .lens k fl nm' :: post)) (hp : Plain nm) (hp' : Plain nm')
    (h : trun true po y (.begin k0 d l f :: (pre ++ .propagate k dz tp nm :: .lens k fl nm' :: post)) = .ok z) :
    ∃ c dist samp w width c' dist' samp' width' fratio, (printTable n z.tab)[pre.countP Surf]? = some (.surface c dist samp w width) ∧
      (printTable n z.tab)[pre.countP Surf + 1]? = some (.lens c' dist' samp' (2 * w) width' fl fratio) := by
  obtain ⟨a, s, s', c, h1, h2, h3, -, h4⟩ := C157_propagate_line hb hp h
  have e : pre ++ TOp.propagate k dz tp nm :: .lens k fl nm' :: post = (pre ++ [TOp.propagate k dz tp nm]) ++ .lens k fl nm' :: post := by simp
  rw [e] at hb h
  obtain ⟨a', t, t', c', g1, g2, g3, -, g4⟩ := C157_lens_line hb hp' h
  rw [List.countP_append] at g4
  rw [← List.cons_append] at g1
  obtain ⟨m, m1, m2⟩ := trun_split g1
  rw [h1, Except.ok.injEq] at m1
  subst m1
  rw [trun_single] at m2
  obtain ⟨u, u', q1, q2, q3, -⟩ := tstep_prop m2
  rw [h2, Option.some.injEq] at q1
  subst q1
  rw [h3, Except.ok.injEq] at q2
  subst q2
  rw [q3, Function.update_self, Option.some.injEq] at g2
  subst g2
  refine ⟨c, _, _, _, _, c', _, _, _, _, h4, g4⟩

/-- C157, the failing case: a prescription that calls prop_begin a second time (a second beam, a second pass) loses the lines of everything before it: the printed table is the one of the
calls since then. -/
theorem C157_second_begin_violated {po : Bool} {y z : Sys n} {k : ℕ} {d l f : ℝ} {first ops : List (TOp n)} (hb : NoBegin ops)
    (h : trun true po y (first ++ .begin k d l f :: ops) = .ok z) : (printTable n z.tab).length = ops.countP Surf := by
  obtain ⟨m, -, h2⟩ := trun_split h
  exact (C157_number hb h2).1

/-- C157: asking for the table never changes what a prescription computes: if it runs with TABLE it runs without, and the wavefronts are the same. -/
theorem C157_transparent {po : Bool} {y y' z : Sys n} {ops : List (TOp n)} (hy : y.wfs = y'.wfs) (h : trun true po y ops = .ok z) :
    ∃ z', trun false po y' ops = .ok z' ∧ z'.wfs = z.wfs := by
  induction ops generalizing y y' with
  | nil => simp only [trun, Except.ok.injEq] at h; subst h; exact ⟨y', rfl, hy.symm⟩
  | cons o os ih =>
    simp only [trun] at h ⊢
    cases hs : tstep true po y o with
    | error e => simp [hs] at h
    | ok m =>
      simp only [hs] at h
      suffices ∃ m', tstep false po y' o = .ok m' ∧ m.wfs = m'.wfs by
        obtain ⟨m', e1, e2⟩ := this
        rw [e1]; exact ih e2 h
      cases o with
      | begin k d l f =>
        simp only [tstep, if_true, Except.ok.injEq] at hs
        subst hs
        refine ⟨_, rfl, ?_⟩
        rw [hy]
      | lens k fl nm =>
        obtain ⟨s, s', e1, e2, e3, -⟩ := tstep_lens hs
        rw [hy] at e1
        refine ⟨⟨Function.update y'.wfs k (some s'), y'.tab⟩, ?_, by rw [e3, hy]⟩
        simp [tstep, e1, e2]
      | propagate k dz tp nm =>
        obtain ⟨s, s', e1, e2, e3, -⟩ := tstep_prop hs
        rw [hy] at e1
        refine ⟨⟨Function.update y'.wfs k (some s'), y'.tab⟩, ?_, by rw [e3, hy]⟩
        simp [tstep, e1, e2]
      | addPhase k ph =>
        simp only [tstep] at hs ⊢
        rw [← hy]
        cases hk : y.wfs k with
        | none => simp [hk] at hs
        | some s => simp only [hk, Except.ok.injEq] at hs ⊢; subst hs; exact ⟨_, rfl, by simp [hy]⟩

/-- With room left and plain names, the table raises nothing. -/
theorem trun_fits {po : Bool} {y y' z : Sys n} {ops : List (TOp n)} (hb : NoBegin ops) (hp : PlainNames ops) (hy : y.wfs = y'.wfs) (h : trun false po y' ops = .ok z)
    (hf : y.tab.num + ops.countP Surf ≤ y.tab.rows.length) : ∃ z', trun true po y ops = .ok z' ∧ z'.wfs = z.wfs := by
  induction ops generalizing y y' with
  | nil => simp only [trun, Except.ok.injEq] at h; subst h; exact ⟨y, rfl, hy⟩
  | cons o os ih =>
    have hb' : NoBegin os := fun k d l f hm => hb k d l f (List.mem_cons_of_mem _ hm)
    have hp' : PlainNames os := ⟨fun k fl nm hm => hp.1 k fl nm (List.mem_cons_of_mem _ hm), fun k dz tp nm hm => hp.2 k dz tp nm (List.mem_cons_of_mem _ hm)⟩
    simp only [trun] at h ⊢
    rw [List.countP_cons] at hf
    cases hs : tstep false po y' o with
    | error e => simp [hs] at h
    | ok m =>
      simp only [hs] at h
      suffices ∃ m', tstep true po y o = .ok m' ∧ m'.wfs = m.wfs by
        obtain ⟨m', e1, e2⟩ := this
        rw [e1]
        have g := tstep_grown (fun k d l f e => hb k d l f (by rw [e]; simp)) e1
        exact ih hb' hp' e2 h (by rw [g.num, g.len]; omega)
      have rec_ok : ∀ (nm dflt : List Char) (F : Row → Row), Plain nm → Plain dflt → y.tab.num < y.tab.rows.length → ∃ t, record y.tab nm dflt F = .ok t := by
        intro nm dflt F h1 h2 h3
        have : Plain (if nm = [] then dflt else nm) := by split_ifs <;> assumption
        unfold record
        rw [List.getElem?_eq_getElem h3]
        simp [encode_plain this]
      cases o with
      | begin k d l f => exact absurd (by simp) (hb k d l f)
      | lens k fl nm =>
        obtain ⟨s, s', e1, e2, e3, -⟩ := tstep_lens hs
        rw [← hy] at e1
        obtain ⟨t, ht⟩ := rec_ok nm "(LENS)".toList (lensRow s s' fl) (hp.1 k fl nm (by simp)) (by intro c hc; revert c; decide) (by simp only [Surf, if_true] at hf; omega)
        refine ⟨⟨Function.update y.wfs k (some s'), t⟩, ?_, by rw [e3, hy]⟩
        simp only [tstep, e1, e2]
        rw [if_pos trivial, ht]
      | propagate k dz tp nm =>
        obtain ⟨s, s', e1, e2, e3, -⟩ := tstep_prop hs
        rw [← hy] at e1
        obtain ⟨t, ht⟩ := rec_ok nm "(SURFACE)".toList (propRow s' dz) (hp.2 k dz tp nm (by simp)) (by intro c hc; revert c; decide) (by simp only [Surf, if_true] at hf; omega)
        refine ⟨⟨Function.update y.wfs k (some s'), t⟩, ?_, by rw [e3, hy]⟩
        simp only [tstep, e1, e2]
        rw [if_pos trivial, ht]
      | addPhase k ph =>
        simp only [tstep] at hs ⊢
        rw [hy]
        cases hk : y'.wfs k with
        | none => simp [hk] at hs
        | some s => simp only [hk, Except.ok.injEq] at hs ⊢; subst hs; exact ⟨_, rfl, by simp⟩

/-- C157: up to 1500 surfaces with plain names, TABLE raises nothing: if the prescription runs without, it runs with it. -/
theorem C157_no_error {po : Bool} {y z : Sys n} {k : ℕ} {d l f : ℝ} {ops : List (TOp n)} (hb : NoBegin ops) (hp : PlainNames ops) (hc : ops.countP Surf ≤ 1500)
    (h : trun false po y (.begin k d l f :: ops) = .ok z) : ∃ z', trun true po y (.begin k d l f :: ops) = .ok z' ∧ z'.wfs = z.wfs := by
  simp only [trun, tstep, if_true] at h ⊢
  simp only [Bool.false_eq_true, if_false] at h
  refine trun_fits (y' := ⟨Function.update y.wfs k (some (begin_ n d l f)), y.tab⟩) hb hp rfl h ?_
  rw [List.length_replicate]
  exact (Nat.zero_add _).le.trans hc

/-- C157, the failing case: a prescription of more than 1500 surfaces that runs without TABLE raises IndexError with it. -/
theorem C157_overflow_violated {po : Bool} {y z : Sys n} {k : ℕ} {d l f : ℝ} {ops : List (TOp n)} (hb : NoBegin ops) (hp : PlainNames ops) (hc : 1500 < ops.countP Surf)
    (h : trun false po y (.begin k d l f :: ops) = .ok z) : trun true po y (.begin k d l f :: ops) = .error .indexError := by
  simp only [trun, tstep, if_true] at h ⊢
  simp only [Bool.false_eq_true, if_false] at h
  revert h
  have key : ∀ (ops : List (TOp n)) (y y' : Sys n), NoBegin ops → PlainNames ops → y.wfs = y'.wfs → trun false po y' ops = .ok z → y.tab.num ≤ y.tab.rows.length →
      y.tab.rows.length < y.tab.num + ops.countP Surf → trun true po y ops = .error .indexError := by
    intro ops
    induction ops with
    | nil => intro y y' _ _ _ _ h1 h2; simp at h2; omega
    | cons o os ih =>
      intro y y' hb hp hy h h1 h2
      have hb' : NoBegin os := fun k d l f hm => hb k d l f (List.mem_cons_of_mem _ hm)
      have hp' : PlainNames os := ⟨fun k fl nm hm => hp.1 k fl nm (List.mem_cons_of_mem _ hm), fun k dz tp nm hm => hp.2 k dz tp nm (List.mem_cons_of_mem _ hm)⟩
      have hb1 : NoBegin [o] := fun k d l f hm => hb k d l f (by rw [List.mem_singleton] at hm; rw [← hm]; simp)
      have hp1 : PlainNames [o] := ⟨fun k fl nm hm => hp.1 k fl nm (by rw [List.mem_singleton] at hm; rw [← hm]; simp),
        fun k dz tp nm hm => hp.2 k dz tp nm (by rw [List.mem_singleton] at hm; rw [← hm]; simp)⟩
      rw [List.countP_cons] at h2
      simp only [trun] at h ⊢
      cases hs : tstep false po y' o with
      | error e => simp [hs] at h
      | ok m =>
        simp only [hs] at h
        by_cases hfull : y.tab.num + (if Surf o then 1 else 0) ≤ y.tab.rows.length
        · obtain ⟨m', e1, e2⟩ := trun_fits hb1 hp1 hy (trun_single.mpr hs) (by simpa [List.countP_cons] using hfull)
          rw [trun_single] at e1
          rw [e1]
          have g := tstep_grown (fun k d l f e => hb k d l f (by rw [e]; simp)) e1
          exact ih m' m hb' hp' e2 h (by rw [g.num, g.len]; exact hfull) (by rw [g.num, g.len]; omega)
        · have hso : Surf o = true := by
            by_contra hc; simp [hc] at hfull; omega
          have hnone : y.tab.rows[y.tab.num]? = none := by
            rw [List.getElem?_eq_none_iff]; simp [hso] at hfull; omega
          cases o with
          | begin k d l f => cases hso
          | lens k fl nm =>
            obtain ⟨s, s', e1, e2, e3, -⟩ := tstep_lens hs
            rw [← hy] at e1
            simp [tstep, e1, e2, record, hnone]
          | propagate k dz tp nm =>
            obtain ⟨s, s', e1, e2, e3, -⟩ := tstep_prop hs
            rw [← hy] at e1
            simp [tstep, e1, e2, record, hnone]
          | addPhase k ph => cases hso
  intro h
  exact key ops _ ⟨Function.update y.wfs k (some (begin_ n d l f)), y.tab⟩ hb hp rfl h (Nat.zero_le _)
    (by rw [List.length_replicate]; exact hc.trans_le (Nat.zero_add _).ge)

/-- C157, the failing case: with TABLE, a lens or a propagation whose name has a character outside ASCII makes the prescription raise. -/
theorem C157_name_violated {po : Bool} {y z : Sys n} {ops : List (TOp n)} {o : TOp n} {nm : List Char} {ch : Char} (ho : o ∈ ops)
    (hn : (∃ k fl, o = .lens k fl nm) ∨ ∃ k dz tp, o = .propagate k dz tp nm) (hc : ch ∈ nm) (h128 : 128 ≤ ch.toNat) : trun true po y ops ≠ .ok z := by
  intro h
  obtain ⟨p, q, rfl⟩ := List.append_of_mem ho
  obtain ⟨m, -, h2⟩ := trun_split h
  rw [show o :: q = [o] ++ q from rfl] at h2
  obtain ⟨m', h3, -⟩ := trun_split h2
  rw [trun_single] at h3
  have hne : nm ≠ [] := by rintro rfl; cases hc
  have key : ∀ {t t' : Tab} {dflt : List Char} {F : Row → Row}, record t nm dflt F ≠ .ok t' := by
    intro t t' dflt F hr
    obtain ⟨r, b, -, e, -⟩ := record_ok hr
    rw [if_neg hne, encode_bad hc h128] at e
    cases e
  rcases hn with ⟨k, fl, rfl⟩ | ⟨k, dz, tp, rfl⟩
  · obtain ⟨s, s', -, -, -, hr⟩ := tstep_lens h3
    exact key (by simpa using hr)
  · obtain ⟨s, s', -, -, -, hr⟩ := tstep_prop h3
    exact key (by simpa using hr)

/-- C157, the failing case: a run whose prescription reuses the wavefront of an earlier run (no prop_begin) writes into the old lists: a propagation is printed as a lens, with the focal length
and the focal ratio of the lens that stood first in the earlier table. -/
theorem C157_stale_violated {po : Bool} {y z : Sys n} {k : ℕ} {dz : ℝ} {tp : Bool} {nm : List Char} {r : Row} {rs : List Row} (hr : y.tab.rows = r :: rs) (hfl : r.fl ≠ 0)
    (h : trun true po (newRun y) [.propagate k dz tp nm] = .ok z) :
    ∃ c samp beam width, printTable n z.tab = [.lens c dz samp beam width r.fl r.fratio] := by
  rw [trun_single] at h
  obtain ⟨s, s', -, -, -, h2⟩ := tstep_prop h
  simp only [if_true] at h2
  obtain ⟨r', b, e1, -, e3⟩ := record_ok h2
  simp only [newRun, hr, List.getElem?_cons_zero, Option.some.injEq] at e1
  subst e1
  refine ⟨shown b, s'.dx, 1 * beamRadius s', n * s'.dx, ?_⟩
  rw [e3]
  simp only [newRun, hr, List.set_cons_zero, printTable, Nat.zero_add, List.take_succ_cons, List.take_zero, List.map_cons, List.map_nil, propRow, line]
  rw [if_pos hfl]

/-- C157: the focal ratio of a lens at the waist of a beam is `f/D` reduced by the finite Rayleigh length: `|f| / (2 w) / (1 + (λ f / (π w²))²)`. -/
theorem C157_fratio_waist {s s' : WF n} {fl : ℝ} (hz : s.z = s.zw0) (h : Proper.lens s fl = .ok s') :
    |s'.zw0 - s'.z| / (2 * gaussRadius s) = |fl| / (2 * s.w0) / (1 + (s.lam * fl / (Real.pi * s.w0 ^ 2)) ^ 2) := by
  have hw : gaussRadius s = s.w0 := by unfold gaussRadius; rw [hz]; simp
  have hs : s'.zw0 = (lensBeam s fl).zw0 ∧ s'.z = (lensBeam s fl).z := by
    unfold Proper.lens at h
    cases hp : lensPhase s (lensBeam s fl) fl with
    | error e => simp [hp, bind, Except.bind] at h
    | ok p => simp only [hp, bind, Except.bind, pure, Except.pure, Except.ok.injEq] at h; subst h; exact ⟨rfl, rfl⟩
  rw [hs.1, hs.2, hw]
  have hw' : wAt s = s.w0 := hw
  have hR : lensR s.z s.zw0 (Real.pi * s.w0 ^ 2 / s.lam) fl = some (-fl) := by unfold lensR; rw [if_neg (by rw [hz]; simp)]
  have hd : 0 < 1 + (s.lam * fl / (Real.pi * s.w0 ^ 2)) ^ 2 := by positivity
  have e : (lensBeam s fl).zw0 - (lensBeam s fl).z = fl / (1 + (s.lam * fl / (Real.pi * s.w0 ^ 2)) ^ 2) := by
    unfold lensBeam
    simp only [hR, hw']
    rw [add_sub_cancel_right, neg_neg]
    congr 2
    rw [mul_neg, neg_div, neg_sq]
  rw [e, abs_div, abs_of_pos hd]
  ring

/-- The calls of one wavefront, as a prescription of `Proper.run`. -/
def plain : TOp n → Option (Proper.Op n)
  | .begin .. => none
  | .lens _ fl _ => some (.lens fl)
  | .propagate _ dz tp _ => some (.propagate dz tp)
  | .addPhase _ ph => some (.addPhase ph)

/-- The wavefront a call is about. -/
def target : TOp n → ℕ
  | .begin k .. => k
  | .lens k .. => k
  | .propagate k .. => k
  | .addPhase k _ => k

/-- C157: a prescription with several wavefronts computes each as if it were alone: the state of wavefront `k` is that of the prescription with the other wavefronts' calls left out. -/
theorem C157_independent {table po : Bool} {y z : Sys n} {ops : List (TOp n)} {k : ℕ} {s : WF n} (hb : NoBegin ops) (hs : y.wfs k = some s) (h : trun table po y ops = .ok z) :
    ∃ s', Proper.run po s ((ops.filter fun o => target o = k).filterMap plain) = .ok s' ∧ z.wfs k = some s' := by
  induction ops generalizing y s with
  | nil => simp only [trun, Except.ok.injEq] at h; subst h; exact ⟨s, rfl, hs⟩
  | cons o os ih =>
    have hb' : NoBegin os := fun k d l f hm => hb k d l f (List.mem_cons_of_mem _ hm)
    simp only [trun] at h
    cases ho : tstep table po y o with
    | error e => simp [ho] at h
    | ok m =>
      simp only [ho] at h
      have key : ∃ j v v', y.wfs j = some v ∧ target o = j ∧ m.wfs = Function.update y.wfs j (some v') ∧ ∃ p, plain o = some p ∧ Proper.step po v p = .ok v' := by
        cases o with
        | begin k d l f => exact absurd (by simp) (hb k d l f)
        | lens j fl nm =>
          obtain ⟨v, v', e1, e2, e3, -⟩ := tstep_lens ho
          exact ⟨j, v, v', e1, rfl, e3, _, rfl, e2⟩
        | propagate j dz tp nm =>
          obtain ⟨v, v', e1, e2, e3, -⟩ := tstep_prop ho
          exact ⟨j, v, v', e1, rfl, e3, _, rfl, e2⟩
        | addPhase j ph =>
          simp only [tstep] at ho
          cases hj : y.wfs j with
          | none => simp [hj] at ho
          | some v => simp only [hj, Except.ok.injEq] at ho; subst ho; exact ⟨j, v, _, hj, rfl, rfl, _, rfl, rfl⟩
      obtain ⟨j, v, v', e1, e2, e3, p, e4, e5⟩ := key
      by_cases hjk : j = k
      · subst hjk
        rw [hs, Option.some.injEq] at e1
        subst e1
        obtain ⟨s', f1, f2⟩ := ih (s := v') hb' (by rw [e3]; simp) h
        refine ⟨s', ?_, f2⟩
        rw [List.filter_cons_of_pos (by simpa using e2), List.filterMap_cons_some e4]
        unfold Proper.run
        rw [List.foldlM_cons, e5]
        exact f1
      · obtain ⟨s', f1, f2⟩ := ih (s := s) hb' (by rw [e3, Function.update_of_ne (Ne.symm hjk)]; exact hs) h
        refine ⟨s', ?_, f2⟩
        rw [List.filter_cons_of_neg (by simpa [e2] using hjk)]
        exact f1

/-! ### A concrete case -/

/-- A pupil of 2 m, a lens and a propagation of 0 m run with TABLE. -/
theorem demo_runs : ∃ z, trun (n := 8) true false ⟨fun _ => none, ⟨[], 0⟩⟩ [.begin 0 1 (1 / 2) (1 / 2), .propagate 0 0 false [], .lens 0 3 "OAP1".toList] = .ok z := by
  have hc : Consistent (begin_ 8 1 (1 / 2) (1 / 2)) := begin_consistent (by norm_num) (by norm_num) (by norm_num)
  obtain ⟨s1, h1, c1, -⟩ := C75_reversible false _ hc 0 (Or.inl rfl) (Or.inl (by simp [begin_])) (Or.inl (by simp [begin_]))
  obtain ⟨s2, h2, -⟩ := C74_consistent s1 c1 (fl := 3) (by norm_num)
  have hp1 : Plain "OAP1".toList := by
    have e : "OAP1".toList = ['O', 'A', 'P', '1'] := rfl
    rw [e]; intro c hc; simp at hc; rcases hc with rfl | rfl | rfl | rfl <;> decide
  have hf : trun (n := 8) false false ⟨fun _ => none, ⟨[], 0⟩⟩ [.begin 0 1 (1 / 2) (1 / 2), .propagate 0 0 false [], .lens 0 3 "OAP1".toList] =
      .ok ⟨Function.update (Function.update (Function.update (fun _ => none) 0 (some (begin_ 8 1 (1 / 2) (1 / 2)))) 0 (some s1)) 0 (some s2), ⟨[], 0⟩⟩ := by
    have q1 : tstep (n := 8) false false ⟨Function.update (fun _ => none) 0 (some (begin_ 8 1 (1 / 2) (1 / 2))), ⟨[], 0⟩⟩ (.propagate 0 0 false []) =
        .ok ⟨Function.update (Function.update (fun _ => none) 0 (some (begin_ 8 1 (1 / 2) (1 / 2)))) 0 (some s1), ⟨[], 0⟩⟩ := by
      simp only [tstep, Function.update_self, h1]; rfl
    have q2 : tstep (n := 8) false false ⟨Function.update (Function.update (fun _ => none) 0 (some (begin_ 8 1 (1 / 2) (1 / 2)))) 0 (some s1), ⟨[], 0⟩⟩ (.lens 0 3 "OAP1".toList) =
        .ok ⟨Function.update (Function.update (Function.update (fun _ => none) 0 (some (begin_ 8 1 (1 / 2) (1 / 2)))) 0 (some s1)) 0 (some s2), ⟨[], 0⟩⟩ := by
      simp only [tstep, Function.update_self, h2]; rfl
    rw [trun]
    simp only [tstep]
    rw [trun]
    simp only [Bool.false_eq_true, if_false, q1]
    rw [trun]
    simp only [q2]
    rfl
  obtain ⟨z, hz, -⟩ := C157_no_error (by intro k d l f hm; simp at hm)
    ⟨by intro k fl nm hm; simp only [List.mem_cons, reduceCtorEq, TOp.lens.injEq, List.not_mem_nil, or_false, false_or] at hm; rw [hm.2.2]; exact hp1,
     by intro k dz tp nm hm; simp only [List.mem_cons, reduceCtorEq, TOp.propagate.injEq, List.not_mem_nil, or_false] at hm; rw [hm.2.2.2]; intro c hc; cases hc⟩
    (by simp only [List.countP_cons, List.countP_nil, Surf]; decide) hf
  exact ⟨z, hz⟩

example : ∃ z, trun (n := 8) true false ⟨fun _ => none, ⟨[], 0⟩⟩ [.begin 0 1 (1 / 2) (1 / 2), .propagate 0 0 false [], .lens 0 3 "OAP1".toList] = .ok z ∧
    (printTable 8 z.tab).length = 2 := by
  obtain ⟨z, hz⟩ := demo_runs
  exact ⟨z, hz, (C157_number (by intro k d l f hm; simp at hm) hz).1⟩

example : Cell "OAP1".toList "b'OAP1'     ".toList := ⟨"     ".toList, by decide, by decide, by decide⟩

end Verif.ProperTable
