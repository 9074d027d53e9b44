import Verif.Props.Spectral

/-! # C39: modes of the control Jacobian -/

namespace Verif.Setup
open Verif

/-- Noll index of controlled Zernike number `iz`. -/
def ModeCfg.z (c : ModeCfg) (iz : ℕ) : ℕ := (c.zerns.map (·.1)).getD iz 0

theorem z_eq (c : ModeCfg) (iz : ℕ) (h : iz < c.zerns.length) : c.z iz = (c.zerns[iz]).1 := by
  simp [ModeCfg.z, List.getD_eq_getElem?_getD, h]

theorem z_inj (c : ModeCfg) (hn : (c.zerns.map (·.1)).Nodup) {i j : ℕ} (hi : i < c.zerns.length) (hj : j < c.zerns.length) (h : c.z i = c.z j) : i = j := by
  have := (List.nodup_iff_injective_getElem.1 hn) (a₁ := ⟨i, by simpa using hi⟩) (a₂ := ⟨j, by simpa using hj⟩)
  have h' := this (by simp only [List.getElem_map]; rw [← z_eq c i hi, ← z_eq c j hj]; exact h)
  simpa using h'

/-- Sub-bands in which a Zernike mode is controlled: all for piston, first, middle and last for the others. -/
def Controlled (Nsbp si z : ℕ) : Prop := z = 1 ∨ si = 0 ∨ si = Nsbp / 2 ∨ si = Nsbp - 1

instance (N s z : ℕ) : Decidable (Controlled N s z) := by unfold Controlled; infer_instance

/-- Piston is the first listed Zernike. -/
def PistonFirst (c : ModeCfg) : Prop := c.zerns ≠ [] ∧ c.z 0 = 1

theorem weightMat0_eq (c : ModeCfg) (hp : PistonFirst c) (hn : (c.zerns.map (·.1)).Nodup) (si iz : ℕ) (hiz : iz < c.zerns.length) :
    weightMat0 c si iz = if Controlled c.Nsbp si (c.z iz) then 1 else 0 := by
  have hmem : 1 ∈ c.zerns.map (·.1) := by
    have h0 : 0 < c.zerns.length := List.length_pos_iff.2 hp.1
    have := hp.2
    rw [z_eq c 0 h0] at this
    rw [← this]
    exact List.mem_map.2 ⟨_, List.getElem_mem h0, rfl⟩
  unfold weightMat0
  simp only
  by_cases h0 : iz = 0
  · subst h0
    have hC : Controlled c.Nsbp si (c.z 0) := Or.inl hp.2
    rw [if_pos ⟨rfl, hmem⟩, if_pos hC]
  · rw [if_neg (fun h => h0 h.1)]
    have hz : c.z iz ≠ 1 := by
      intro h
      exact h0 (z_inj c hn hiz (by omega) (h.trans hp.2.symm))
    have hz' : (c.zerns.map (·.1)).getD iz 0 ≠ 1 := hz
    rw [if_neg hz']
    unfold Controlled
    simp only [hz, false_or]

theorem weightMat1_pos (c : ModeCfg) (si iz : ℕ) : (0 ≤ weightMat0 c si iz → 0 ≤ weightMat1 c si iz) ∧ (0 < weightMat1 c si iz ↔ 0 < weightMat0 c si iz) := by
  unfold weightMat1
  simp only
  split_ifs <;> refine ⟨fun h => by linarith, ?_⟩ <;> constructor <;> intro h <;> linarith

theorem weightMat0_nonneg (c : ModeCfg) (si iz : ℕ) : 0 ≤ weightMat0 c si iz := by
  unfold weightMat0; simp only; split_ifs <;> norm_num

theorem weightMat0_zero (c : ModeCfg) (si iz : ℕ) : weightMat0 c si iz = 0 ∨ weightMat0 c si iz = 1 := by
  unfold weightMat0; simp only; split_ifs <;> simp

theorem colSum_pos (c : ModeCfg) (h : 1 ≤ c.Nsbp) (hp : PistonFirst c) (hn : (c.zerns.map (·.1)).Nodup) (iz : ℕ) (hiz : iz < c.zerns.length) : 0 < colSum c iz := by
  unfold colSum
  rw [sum_map_range]
  refine Finset.sum_pos' (fun si _ => (weightMat1_pos c si iz).1 (weightMat0_nonneg c si iz)) ⟨0, Finset.mem_range.2 h, ?_⟩
  rw [(weightMat1_pos c 0 iz).2, weightMat0_eq c hp hn 0 iz hiz, if_pos]
  · norm_num
  · exact Or.inr (Or.inl rfl)

/-- Zernike number `iz` is controlled at all: piston, or non-zero coefficient. -/
def Active (c : ModeCfg) (iz : ℕ) : Prop := zcoef c iz ≠ 0

open Classical in
theorem weightMatInd_eq (c : ModeCfg) (h : 1 ≤ c.Nsbp) (hp : PistonFirst c) (hn : (c.zerns.map (·.1)).Nodup) :
    weightMatInd c = (List.range c.Nsbp).flatMap fun si => ((List.range c.zerns.length).filter fun iz => Active c iz ∧ Controlled c.Nsbp si (c.z iz)).map
      fun iz => (si, iz, weightMat1 c si iz / colSum c iz) := by
  unfold weightMatInd
  refine List.flatMap_congr fun si _ => ?_
  rw [← List.filterMap_eq_map, List.filterMap_filter]
  refine List.filterMap_congr fun iz hiz => ?_
  rw [List.mem_range] at hiz
  have hc := colSum_pos c h hp hn iz hiz
  unfold weightMat
  rw [if_neg hc.ne']
  by_cases ha : zcoef c iz = 0
  · rw [if_pos ha]
    simp [Active, ha]
  · rw [if_neg ha]
    simp only
    have hw : 0 < weightMat1 c si iz / colSum c iz ↔ Controlled c.Nsbp si (c.z iz) := by
      rw [div_pos_iff_of_pos_right hc, (weightMat1_pos c si iz).2, weightMat0_eq c hp hn si iz hiz]
      split_ifs with h1 <;> simp [h1]
    by_cases h1 : Controlled c.Nsbp si (c.z iz)
    · rw [if_pos (hw.2 h1)]; simp [Active, ha, h1]
    · rw [if_neg (fun h => h1 (hw.1 h))]; simp [h1]

theorem jacModes_ok (c : ModeCfg) (ms : List JMode) (h : jacModes c = .ok ms) :
    1 ∈ c.zerns.map (·.1) ∧ c.zerns.map (·.1) = c.setOrder (c.zerns.map (·.1)) ∧
    ms = (List.range c.Nstar).flatMap fun st => (weightMatInd c).map fun p => { star := st, sbp := p.1, zern := c.z p.2.1, weight := p.2.2 } := by
  unfold jacModes at h
  cases hz : zernChecks c with
  | error e => rw [hz] at h; simp [bind, Except.bind] at h
  | ok u =>
    rw [hz] at h
    simp only [bind, Except.bind, pure, Except.pure, Except.ok.injEq] at h
    unfold zernChecks at hz
    simp only at hz
    split_ifs at hz with h1 h2
    exact ⟨h1, not_not.1 h2, h.symm⟩

/-- C39. For controlled Zernikes listed with piston first (and any iteration order of Python sets), whenever the modes are accepted: no mode is listed
twice, and the listed modes are exactly the combinations of a star, a Zernike that is piston or has a non-zero coefficient, and a sub-band, which is
arbitrary for piston and the first, middle or last one for the others. -/
theorem C39_modes (c : ModeCfg) (ms : List JMode) (h : 1 ≤ c.Nsbp) (hp : PistonFirst c) (hset : (c.setOrder (c.zerns.map (·.1))).Nodup)
    (hok : jacModes c = .ok ms) :
    (ms.map fun m => (m.star, m.sbp, m.zern)).Nodup ∧
    ∀ st si z, (st, si, z) ∈ ms.map (fun m => (m.star, m.sbp, m.zern)) ↔
      st < c.Nstar ∧ si < c.Nsbp ∧ (∃ a, (z, a) ∈ c.zerns ∧ (z = 1 ∨ a ≠ 0)) ∧ (z = 1 ∨ si = 0 ∨ si = c.Nsbp / 2 ∨ si = c.Nsbp - 1) := by
  classical
  obtain ⟨h1, h2, rfl⟩ := jacModes_ok c ms hok
  have hn : (c.zerns.map (·.1)).Nodup := by rw [h2]; exact hset
  rw [weightMatInd_eq c h hp hn]
  constructor
  · rw [List.map_flatMap]
    rw [List.nodup_flatMap]
    constructor
    · intro st _
      rw [List.map_map, List.map_flatMap, List.nodup_flatMap]
      constructor
      · intro si _
        rw [List.map_map]
        refine List.Nodup.map_on ?_ (List.nodup_range.filter _)
        intro i hi j hj hij
        have hi' := List.mem_range.1 (List.mem_filter.1 hi).1
        have hj' := List.mem_range.1 (List.mem_filter.1 hj).1
        simp only [Function.comp, Prod.mk.injEq] at hij
        exact z_inj c hn hi' hj' hij.2.2
      · refine (List.nodup_range (n := c.Nsbp)).imp ?_
        intro a b hab
        simp only [Function.onFun]
        rw [List.disjoint_left]
        intro x hx hx'
        obtain ⟨p, hp1, rfl⟩ := List.mem_map.1 hx
        obtain ⟨p', -, rfl⟩ := List.mem_map.1 hp1
        obtain ⟨q, hq1, hq⟩ := List.mem_map.1 hx'
        obtain ⟨q', -, rfl⟩ := List.mem_map.1 hq1
        simp only [Function.comp, Prod.mk.injEq] at hq
        exact hab hq.2.1.symm
    · refine (List.nodup_range (n := c.Nstar)).imp ?_
      intro a b hab
      simp only [Function.onFun]
      rw [List.disjoint_left]
      intro x hx hx'
      simp only [List.mem_map] at hx hx'
      obtain ⟨m, ⟨p, -, rfl⟩, rfl⟩ := hx
      obtain ⟨m', ⟨p', -, rfl⟩, hq⟩ := hx'
      simp only [Prod.mk.injEq] at hq
      exact hab hq.1.symm
  · intro st si z
    simp only [List.mem_map, List.mem_flatMap, List.mem_filter, List.mem_range, decide_eq_true_eq]
    constructor
    · rintro ⟨m, ⟨st', hst, p, ⟨si', hsi, iz, ⟨hiz, ha, hc⟩, rfl⟩, rfl⟩, he⟩
      simp only [Prod.mk.injEq] at he
      obtain ⟨rfl, rfl, rfl⟩ := he
      refine ⟨hst, hsi, ?_, hc⟩
      refine ⟨(c.zerns[iz]).2, ?_, ?_⟩
      · have : (c.z iz, (c.zerns[iz]).2) = c.zerns[iz] := by rw [z_eq c iz hiz]
        rw [this]; exact List.getElem_mem hiz
      · unfold Active zcoef at ha
        rw [List.getD_eq_getElem?_getD, List.getElem?_eq_getElem hiz] at ha
        simp only [Option.getD_some] at ha
        rw [z_eq c iz hiz]
        by_cases hz1 : (c.zerns[iz]).1 = 1
        · exact Or.inl hz1
        · rw [if_neg hz1] at ha; exact Or.inr ha
    · rintro ⟨hst, hsi, ⟨a, ha, ha'⟩, hc⟩
      obtain ⟨iz, hiz, he⟩ := List.getElem_of_mem ha
      have hz : c.z iz = z := by rw [z_eq c iz hiz, he]
      refine ⟨_, ⟨st, hst, _, ⟨si, hsi, iz, ⟨hiz, ?_, ?_⟩, rfl⟩, rfl⟩, by simp only [hz]⟩
      · unfold Active zcoef
        rw [List.getD_eq_getElem?_getD, List.getElem?_eq_getElem hiz, he]
        simp only [Option.getD_some]
        by_cases hz1 : z = 1
        · rw [if_pos hz1]; norm_num
        · rw [if_neg hz1]; exact ha'.resolve_left hz1
      · rw [hz]; exact hc

theorem sum_filter_map {α : Type} (l : List α) (P : α → Prop) [DecidablePred P] (f : α → ℝ) : ((l.filter fun x => P x).map f).sum = (l.map fun x => if P x then f x else 0).sum := by
  induction l with
  | nil => simp
  | cons a l ih =>
    by_cases h : P a
    · rw [List.filter_cons_of_pos (by simpa using h)]; simp [h, ih]
    · rw [List.filter_cons_of_neg (by simpa using h)]; simp [h, ih]

theorem sum_map_flatMap {α β : Type} (l : List α) (g : α → List β) (f : β → ℝ) : ((l.flatMap g).map f).sum = (l.map fun a => ((g a).map f).sum).sum := by
  induction l with
  | nil => simp
  | cons a l ih => simp [ih]

/-- C39. The weights of the modes of one star and one controlled Zernike sum to 1. -/
theorem C39_weights (c : ModeCfg) (ms : List JMode) (h : 1 ≤ c.Nsbp) (hp : PistonFirst c) (hset : (c.setOrder (c.zerns.map (·.1))).Nodup)
    (hok : jacModes c = .ok ms) (st : ℕ) (hst : st < c.Nstar) (z : ℕ) (a : ℝ) (hz : (z, a) ∈ c.zerns) (ha : z = 1 ∨ a ≠ 0) :
    ((ms.filter fun m => m.star = st ∧ m.zern = z).map (·.weight)).sum = 1 := by
  classical
  obtain ⟨h1, h2, rfl⟩ := jacModes_ok c ms hok
  have hn : (c.zerns.map (·.1)).Nodup := by rw [h2]; exact hset
  obtain ⟨iz, hiz, he⟩ := List.getElem_of_mem hz
  have hziz : c.z iz = z := by rw [z_eq c iz hiz, he]
  have hact : Active c iz := by
    unfold Active zcoef
    rw [List.getD_eq_getElem?_getD, List.getElem?_eq_getElem hiz, he]
    simp only [Option.getD_some]
    by_cases hz1 : z = 1
    · rw [if_pos hz1]; norm_num
    · rw [if_neg hz1]; exact ha.resolve_left hz1
  rw [weightMatInd_eq c h hp hn, sum_filter_map, sum_map_flatMap, sum_map_range]
  rw [Finset.sum_eq_single_of_mem st (Finset.mem_range.2 hst)]
  · rw [List.map_map, sum_map_flatMap, sum_map_range]
    have : ∀ si ∈ Finset.range c.Nsbp, ((((List.range c.zerns.length).filter fun iz => Active c iz ∧ Controlled c.Nsbp si (c.z iz)).map
        fun iz => (si, iz, weightMat1 c si iz / colSum c iz)).map ((fun x : JMode => if x.star = st ∧ x.zern = z then x.weight else 0) ∘
          fun p : ℕ × ℕ × ℝ => { star := st, sbp := p.1, zern := c.z p.2.1, weight := p.2.2 })).sum = weightMat1 c si iz / colSum c iz := by
      intro si _
      rw [List.map_map, filter_map_sum c.zerns.length (fun iz => Active c iz ∧ Controlled c.Nsbp si (c.z iz))]
      rw [Finset.sum_eq_single_of_mem iz (Finset.mem_range.2 hiz)]
      · simp only [Function.comp, hziz]
        by_cases hc : Controlled c.Nsbp si z
        · rw [if_pos ⟨hact, hc⟩]; simp
        · rw [if_neg (fun h => hc h.2)]
          have h0 : weightMat0 c si iz = 0 := by rw [weightMat0_eq c hp hn si iz hiz, hziz, if_neg hc]
          have : weightMat1 c si iz = 0 := by unfold weightMat1; simp [h0]
          rw [this]; simp
      · intro j hj hne
        have hzj : c.z j ≠ z := fun h => hne (z_inj c hn (Finset.mem_range.1 hj) hiz (h.trans hziz.symm))
        simp [hzj]
    rw [Finset.sum_congr rfl this, ← Finset.sum_div]
    have hcs := colSum_pos c h hp hn iz hiz
    have : ∑ i ∈ Finset.range c.Nsbp, weightMat1 c i iz = colSum c iz := by unfold colSum; rw [sum_map_range]
    rw [this, div_self hcs.ne']
  · intro st' _ hne
    rw [List.map_map, sum_map_flatMap, sum_map_range]
    refine Finset.sum_eq_zero fun si _ => ?_
    rw [List.map_map]
    refine List.sum_eq_zero ?_
    intro x hx
    obtain ⟨j, -, rfl⟩ := List.mem_map.1 hx
    simp [hne]

/-- C39. The weight of every piston mode: with the perfect estimator the two end sub-bands weigh half of the others, otherwise all sub-bands weigh
the same. -/
theorem C39_piston_weight (c : ModeCfg) (ms : List JMode) (h : 1 ≤ c.Nsbp) (hp : PistonFirst c) (hset : (c.setOrder (c.zerns.map (·.1))).Nodup)
    (hok : jacModes c = .ok ms) (m : JMode) (hm : m ∈ ms) (hz : m.zern = 1) :
    m.weight = if c.perfect ∧ 2 ≤ c.Nsbp then (if m.sbp = 0 ∨ m.sbp = c.Nsbp - 1 then 1 / 2 else 1) / ((c.Nsbp : ℝ) - 1) else 1 / c.Nsbp := by
  classical
  obtain ⟨h1, h2, rfl⟩ := jacModes_ok c ms hok
  have hn : (c.zerns.map (·.1)).Nodup := by rw [h2]; exact hset
  have h0 : 0 < c.zerns.length := List.length_pos_iff.2 hp.1
  rw [weightMatInd_eq c h hp hn] at hm
  simp only [List.mem_flatMap, List.mem_range, List.mem_map, List.mem_filter] at hm
  obtain ⟨st, hst, p, ⟨si, hsi, iz, ⟨hiz, -⟩, rfl⟩, rfl⟩ := hm
  simp only at hz ⊢
  have hi0 : iz = 0 := z_inj c hn hiz h0 (hz.trans hp.2.symm)
  subst hi0
  have hw0 : ∀ k, weightMat0 c k 0 = 1 := fun k => by
    have hC : Controlled c.Nsbp k (c.z 0) := Or.inl hp.2
    rw [weightMat0_eq c hp hn k 0 h0, if_pos hC]
  have hw1 : ∀ k, weightMat1 c k 0 = if c.perfect then (if k = 0 then 1 / 2 else 1) * (if k = c.Nsbp - 1 then 1 / 2 else 1) else 1 := by
    intro k
    unfold weightMat1
    simp only [hw0]
    split_ifs <;> norm_num
  have hsum : colSum c 0 = ∑ k ∈ Finset.range c.Nsbp, weightMat1 c k 0 := by unfold colSum; rw [sum_map_range]
  by_cases hperf : c.perfect = true
  · simp only [hperf, if_true] at hw1
    by_cases h2' : 2 ≤ c.Nsbp
    · rw [if_pos ⟨hperf, h2'⟩]
      have hval : ∀ k, weightMat1 c k 0 = 1 - (if k = 0 then 1 / 2 else 0) - (if k = c.Nsbp - 1 then 1 / 2 else 0) := by
        intro k
        rw [hw1]
        split_ifs with a b b
        · omega
        · norm_num
        · norm_num
        · norm_num
      have hc : colSum c 0 = (c.Nsbp : ℝ) - 1 := by
        rw [hsum]
        simp only [hval, Finset.sum_sub_distrib, Finset.sum_ite_eq', Finset.mem_range]
        rw [if_pos (by omega), if_pos (by omega)]
        simp
        ring
      rw [hc, hval]
      congr 1
      by_cases a : si = 0
      · subst a; rw [if_pos rfl, if_neg (by omega), if_pos (Or.inl rfl)]; norm_num
      · by_cases b : si = c.Nsbp - 1
        · rw [if_neg a, if_pos b, if_pos (Or.inr b)]; norm_num
        · rw [if_neg a, if_neg b, if_neg (by tauto)]; norm_num
    · have hN : c.Nsbp = 1 := by omega
      rw [if_neg (by tauto), hsum, hN]
      have : si = 0 := by omega
      subst this
      simp only [hN] at hw1
      simp [hw1]
  · have hall : ∀ k, weightMat1 c k 0 = 1 := fun k => by rw [hw1, if_neg hperf]
    rw [if_neg (fun h => hperf h.1), hsum]
    simp [hall]

/-- C39. A list of Zernikes with a repetition, or without piston, is rejected with `ValueError`. -/
theorem C39_rejects (c : ModeCfg) (hset : ∀ l, (c.setOrder l).Nodup) (h : 1 ∉ c.zerns.map (·.1) ∨ ¬ (c.zerns.map (·.1)).Nodup) :
    jacModes c = .error .valueError := by
  have : zernChecks c = .error .valueError := by
    unfold zernChecks
    simp only
    by_cases h1 : 1 ∉ c.zerns.map (·.1)
    · rw [if_pos h1]
    · rw [if_neg h1, if_pos]
      intro he
      refine (h.resolve_left h1) ?_
      rw [he]; exact hset _
  unfold jacModes
  rw [this]
  rfl

/-- C39 (negative): piston not listed first.  Whenever the list `[z, 1]` (with `z ≠ 1`, non-zero coefficient) is accepted, as it is for `[8, 1]`
in CPython, no piston mode exists and the other Zernike is controlled in every sub-band. -/
theorem C39_piston_last_violated (c : ModeCfg) (z : ℕ) (a : ℝ) (hz : z ≠ 1) (ha : a ≠ 0) (hN : 1 ≤ c.Nsbp) (hS : 1 ≤ c.Nstar) (hc : c.zerns = [(z, a), (1, 1)]) (ms : List JMode)
    (hok : jacModes c = .ok ms) : (∀ m ∈ ms, m.zern ≠ 1) ∧ ∀ si < c.Nsbp, ∃ m ∈ ms, m.sbp = si ∧ m.zern = z := by
  classical
  obtain ⟨h1, h2, rfl⟩ := jacModes_ok c ms hok
  have hz0 : c.z 0 = z := by simp [ModeCfg.z, hc]
  have hz1 : c.z 1 = 1 := by simp [ModeCfg.z, hc]
  have hw1 : ∀ si, weightMat c si 1 = none := by
    intro si
    unfold weightMat
    rw [if_pos]
    unfold colSum
    rw [sum_map_range]
    refine Finset.sum_eq_zero fun k _ => ?_
    have : weightMat0 c k 1 = 0 := by simp [weightMat0, hc]
    unfold weightMat1
    simp [this]
  have hm0 : ∀ k, weightMat0 c k 0 = 1 := by intro k; simp [weightMat0, hc]
  have hpos : ∀ k, 0 < weightMat1 c k 0 := by intro k; rw [(weightMat1_pos c k 0).2, hm0]; norm_num
  have hcol : 0 < colSum c 0 := by
    unfold colSum
    rw [sum_map_range]
    exact Finset.sum_pos (fun k _ => hpos k) ⟨0, Finset.mem_range.2 hN⟩
  have hw0 : ∀ si, weightMat c si 0 = some (weightMat1 c si 0 / colSum c 0) := by
    intro si
    unfold weightMat
    rw [if_neg hcol.ne', if_neg]
    simp [zcoef, hc, hz, ha]
  have hlen : c.zerns.length = 2 := by rw [hc]; rfl
  constructor
  · intro m hm
    simp only [List.mem_flatMap, List.mem_map, List.mem_range, weightMatInd, List.mem_filterMap, hlen] at hm
    obtain ⟨st, -, p, ⟨si, -, iz, hiz, hp⟩, rfl⟩ := hm
    have : iz = 0 ∨ iz = 1 := by omega
    rcases this with rfl | rfl
    · rw [hw0] at hp
      simp only [div_pos (hpos si) hcol, if_true, Option.some.injEq] at hp
      rw [← hp]
      simp only [hz0]
      exact hz
    · rw [hw1] at hp; simp at hp
  · intro si hsi
    refine ⟨{ star := 0, sbp := si, zern := c.z 0, weight := weightMat1 c si 0 / colSum c 0 }, ?_, rfl, hz0⟩
    simp only [List.mem_flatMap, List.mem_map, List.mem_range, weightMatInd, List.mem_filterMap, hlen]
    refine ⟨0, hS, (si, 0, weightMat1 c si 0 / colSum c 0), ⟨si, hsi, 0, by norm_num, ?_⟩, rfl⟩
    rw [hw0]
    simp only [div_pos (hpos si) hcol, if_true]

/-- C39 (negative): distinct Zernikes are rejected as "repeated" whenever Python's set iterates in another order than they are listed (as for
`[1, 8]`, where CPython gives 8 before 1). -/
theorem C39_order_violated (c : ModeCfg) (h1 : 1 ∈ c.zerns.map (·.1)) (h : c.setOrder (c.zerns.map (·.1)) ≠ c.zerns.map (·.1)) :
    jacModes c = .error .valueError := by
  have : zernChecks c = .error .valueError := by
    unfold zernChecks
    simp only
    rw [if_neg (not_not.2 h1), if_pos (fun he => h he.symm)]
  unfold jacModes
  rw [this]
  rfl

/-- The hypotheses of `C39_modes` and `C39_weights` are met by piston, tip and tilt over five sub-bands and two stars. -/
example : ∃ (c : ModeCfg) (ms : List JMode), 1 ≤ c.Nsbp ∧ PistonFirst c ∧ (c.setOrder (c.zerns.map (·.1))).Nodup ∧ c.zerns.length = 3 ∧ c.Nstar = 2 ∧
    jacModes c = .ok ms := by
  refine ⟨⟨5, 2, [(1, 1), (2, 1e-9), (3, 1e-9)], true, fun _ => [1, 2, 3]⟩, _, by norm_num, ⟨by simp, rfl⟩, by simp, rfl, rfl, rfl⟩

end Verif.Setup
