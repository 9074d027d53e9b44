import Verif.Model.JacWork
import Verif.Props.Jac
import Verif.Props.Imaging

/-! # C109: dividing the work of the control Jacobian between threads and between processes -/

namespace Verif.JacWork
open Verif Verif.Imaging

variable {M : ℕ} {P : Type}

/-- The column of actuator `a` of DM `d` for mode `m`, with everything `mp` says: zero for a dead actuator, else the result of the model for the padded boxes of its DM (read four times, eight times with `minimizeNI`). -/
noncomputable def Mp.col (mp : Mp M P) (k : Kind) (m : Fin M) (d a : ℕ) : P → ℂ :=
  if a ∈ mp.dead d then fun _ => 0 else mp.field k m d a (List.replicate (if mp.minimizeNI then 8 else 4) (mp.padded d))

theorem prog_expected (mp : Mp M P) (d a : ℕ) : expected mp.padded (mp.prog d a) = if a ∈ mp.dead d then [] else List.replicate (if mp.minimizeNI then 8 else 4) (mp.padded d) := by
  unfold Mp.prog Mp.pass
  split_ifs <;> rfl

theorem prog_consistent (mp : Mp M P) (d a : ℕ) : Consistent (fun _ => True) mp.padded (fun _ => False) (mp.prog d a) := by
  unfold Mp.prog Mp.pass
  split_ifs <;> simp [Consistent]

theorem column_expected (mp : Mp M P) (k : Kind) (m : Fin M) (d a : ℕ) (hd : d = 1 ∨ d = 2) : mp.column k m d a (expected mp.padded (mp.prog d a)) = .ok (mp.col k m d a) := by
  unfold Mp.column Mp.col
  rw [if_pos hd, prog_expected]
  by_cases h : a ∈ mp.dead d <;> simp [h]

theorem alone_expected (mp : Mp M P) (mem : ℕ → Boxes) (d a : ℕ) : (runAlone mem (mp.prog d a)).1 = expected mp.padded (mp.prog d a) :=
  runAlone_consistent (fun _ => True) mp.padded _ (fun _ => False) mem (fun _ _ h => h.elim) (prog_consistent mp d a)

/-- C109: a call that runs alone returns the column, whatever earlier calls left in `mp`. -/
theorem C109_call (mp : Mp M P) (k : Kind) (hk : middle mp.layout mp.coro = .ok k) (mem : ℕ → Boxes) (m : Fin M) (d a : ℕ) (hd : d = 1 ∨ d = 2) : (mp.call mem m d a).1 = .ok (mp.col k m d a) := by
  unfold Mp.call
  rw [hk]
  simp only
  rw [alone_expected, column_expected mp k m d a hd]

theorem serial_store (mp : Mp M P) (k : Kind) (hk : middle mp.layout mp.coro = .ok k) : ∀ (l : List (Fin M × ℕ × ℕ × ℕ)) (mem : ℕ → Boxes) (J : JacStruct M P), (∀ x ∈ l, x.2.1 = 1 ∨ x.2.1 = 2) →
    mp.serial l mem J = storeAll (l.map fun x => ((x.1, x.2.1, x.2.2.2), mp.col k x.1 x.2.1 x.2.2.1)) J
  | [], _, _, _ => rfl
  | (m, d, a, j) :: l, mem, J, h => by
    unfold Mp.serial
    simp only [List.map_cons, storeAll]
    rw [C109_call mp k hk mem m d a (h (m, d, a, j) (by simp))]
    simp only
    cases h1 : J.set d j m (mp.col k m d a) with
    | error e => rfl
    | ok J' => exact serial_store mp k hk l _ J' fun x hx => h x (by simp [hx])

theorem parOrder_dm (mp : Mp M P) : ∀ x ∈ mp.parOrder, x.2.1 = 1 ∨ x.2.1 = 2 := by
  intro x hx
  simp only [Mp.parOrder, List.mem_flatMap, List.mem_map] at hx
  obtain ⟨d, hd, a, _, m, _, rfl⟩ := hx
  simpa using hd

theorem mapM_ok {α β : Type} (f : α → Except PyErr β) (g : α → β) : ∀ l : List α, (∀ x ∈ l, f x = .ok (g x)) → l.mapM f = .ok (l.map g)
  | [], _ => rfl
  | a :: l, h => by
    rw [List.mapM_cons, h a (by simp), mapM_ok f g l fun x hx => h x (by simp [hx])]
    rfl

/-- C109: with any number of threads and whatever order the operating system runs them in, if all calls finish the parallel Jacobian is assembled from the columns, each the one the call would return if it ran alone. -/
theorem C109_threads (mp : Mp M P) (kd : Kind) (hk : middle mp.layout mp.coro = .ok kd) (mem : ℕ → Boxes) (k : ℕ) (sched : List (Fin k)) (r : Except PyErr (JacStruct M P)) (h : mp.parallel mem k sched = some r) :
    r = storeAll (mp.parOrder.map fun x => (x, mp.col kd x.1 x.2.1 x.2.2)) mp.zeros := by
  have htasks : mp.tasks = mp.parOrder.map fun x => mp.prog x.2.1 x.2.2 := by simp only [Mp.tasks, hk]
  unfold Mp.parallel at h
  simp only [htasks] at h
  obtain ⟨rs, h1, h2⟩ := Option.map_eq_some_iff.1 h
  have hres : ∀ (t : ℕ) (x : Fin M × ℕ × ℕ) (hx : mp.parOrder[t]? = some x) (v : Except PyErr (P → ℂ)), mp.parResult (Pool.run (mp.parOrder.map fun x => mp.prog x.2.1 x.2.2) (Pool.init mem k) sched) t x = some v →
      v = .ok (mp.col kd x.1 x.2.1 x.2.2) := by
    intro t x hx v hv
    unfold Mp.parResult at hv
    obtain ⟨rds, hr1, hr2⟩ := Option.map_eq_some_iff.1 hv
    have := pool_consistent (mp.parOrder.map fun x => mp.prog x.2.1 x.2.2) (fun _ => True) mp.padded (by
      intro p hp
      obtain ⟨x, _, rfl⟩ := List.mem_map.1 hp
      exact prog_consistent mp _ _) mem sched t rds hr1
    rw [List.getD_eq_getElem?_getD, List.getElem?_map, hx] at this
    simp only [Option.map_some, Option.getD_some] at this
    rw [hk] at hr2
    simp only at hr2
    rw [← hr2, this, column_expected mp kd _ _ _ (parOrder_dm mp x (List.mem_of_getElem? hx))]
  have hrs : rs = mp.parOrder.map fun x => (x, Except.ok (mp.col kd x.1 x.2.1 x.2.2)) := by
    have := mapM_some _ (fun p : (Fin M × ℕ × ℕ) × ℕ => (p.1, (Except.ok (mp.col kd p.1.1 p.1.2.1 p.1.2.2) : Except PyErr (P → ℂ)))) mp.parOrder.zipIdx rs h1 (by
      rintro ⟨x, t⟩ hx y hy
      obtain ⟨v, hv, rfl⟩ := Option.map_eq_some_iff.1 hy
      rw [hres t x (by simpa using List.mk_mem_zipIdx_iff_getElem?.1 hx) v hv])
    rw [this, show (fun p : (Fin M × ℕ × ℕ) × ℕ => (p.1, (Except.ok (mp.col kd p.1.1 p.1.2.1 p.1.2.2) : Except PyErr (P → ℂ)))) =
      (fun x => (x, Except.ok (mp.col kd x.1 x.2.1 x.2.2))) ∘ Prod.fst from rfl, ← List.map_map, List.zipIdx_map_fst]
  subst hrs
  rw [mapM_ok _ (fun p => (p.1, mp.col kd p.1.1 p.1.2.1 p.1.2.2)) _ (by
    intro p hp
    obtain ⟨x, _, rfl⟩ := List.mem_map.1 hp
    rfl), List.map_map] at h2
  rw [← h2]
  rfl

/-- The Jacobian of DM `d` (DM1 or DM2). -/
def JacStruct.G (J : JacStruct M P) (d : ℕ) : List (Jac.Col M P) := if d = 1 then J.G1 else J.G2

theorem set_ok (J : JacStruct M P) (d j : ℕ) (m : Fin M) (v : P → ℂ) (hd : d = 1 ∨ d = 2) (hj : j < (J.G d).length) :
    ∃ J', J.set d j m v = .ok J' ∧ J'.G d = (J.G d).set j (Function.update (J.G d)[j] m v) ∧ ∀ d', (d' = 1 ∨ d' = 2) → d' ≠ d → J'.G d' = J.G d' := by
  rcases hd with rfl | rfl
  · simp only [JacStruct.G, if_true] at hj ⊢
    refine ⟨{ J with G1 := J.G1.set j (Function.update J.G1[j] m v) }, ?_, rfl, ?_⟩
    · simp [JacStruct.set, Jac.setCol_ok J.G1 j m v hj]
    · rintro d' (rfl | rfl) h
      · exact absurd rfl h
      · rfl
  · simp only [JacStruct.G, show (2 : ℕ) ≠ 1 by decide, if_false] at hj ⊢
    refine ⟨{ J with G2 := J.G2.set j (Function.update J.G2[j] m v) }, ?_, rfl, ?_⟩
    · simp [JacStruct.set, Jac.setCol_ok J.G2 j m v hj]
    · rintro d' (rfl | rfl) h
      · rfl
      · exact absurd rfl h

/-- Storing columns: every stored place holds the value stored there, all others are unchanged. -/
theorem storeAll_spec (val : Fin M × ℕ × ℕ → P → ℂ) : ∀ (ks : List (Fin M × ℕ × ℕ)) (J : JacStruct M P), (∀ x ∈ ks, (x.2.1 = 1 ∨ x.2.1 = 2) ∧ x.2.2 < (J.G x.2.1).length) →
    ∃ J', storeAll (ks.map fun x => (x, val x)) J = .ok J' ∧ (∀ d, (d = 1 ∨ d = 2) → (J'.G d).length = (J.G d).length) ∧
      ∀ (d j : ℕ) (m : Fin M) (c : Jac.Col M P), (d = 1 ∨ d = 2) → (J.G d)[j]? = some c → ∃ c' : Jac.Col M P, (J'.G d)[j]? = some c' ∧ c' m = if (m, d, j) ∈ ks then val (m, d, j) else c m
  | [], J, _ => ⟨J, rfl, fun _ _ => rfl, fun d j m c _ hc => ⟨c, hc, by simp⟩⟩
  | (m0, d0, j0) :: ks, J, h => by
    obtain ⟨hd0, hj0⟩ := h _ (List.mem_cons_self ..)
    simp only at hd0 hj0
    obtain ⟨J1, e1, e2, e3⟩ := set_ok J d0 j0 m0 (val (m0, d0, j0)) hd0 hj0
    have hlen : ∀ d, (d = 1 ∨ d = 2) → (J1.G d).length = (J.G d).length := by
      intro d hd
      by_cases hdd : d = d0
      · subst hdd; rw [e2, List.length_set]
      · rw [e3 d hd hdd]
    obtain ⟨J', f1, f2, f3⟩ := storeAll_spec val ks J1 (fun x hx => by
      obtain ⟨a, b⟩ := h x (by simp [hx])
      exact ⟨a, by rw [hlen _ a]; exact b⟩)
    refine ⟨J', ?_, fun d hd => (f2 d hd).trans (hlen d hd), ?_⟩
    · simp only [List.map_cons, storeAll, e1]; exact f1
    · intro d j m c hd hc
      have hc1 : ∃ c1 : Jac.Col M P, (J1.G d)[j]? = some c1 ∧ c1 m = if (m, d, j) = (m0, d0, j0) then val (m, d, j) else c m := by
        by_cases hdd : d = d0
        · subst hdd
          rw [e2]
          by_cases hjj : j = j0
          · subst hjj
            refine ⟨_, by rw [List.getElem?_set_self hj0], ?_⟩
            have hcc : (J.G d)[j] = c := by rw [List.getElem?_eq_getElem hj0] at hc; exact Option.some.inj hc
            by_cases hm : m = m0
            · subst hm; simp
            · rw [Function.update_of_ne hm, if_neg (by simp [hm]), hcc]
          · exact ⟨c, by rw [List.getElem?_set_ne (Ne.symm hjj)]; exact hc, by rw [if_neg (by simp [hjj])]⟩
        · exact ⟨c, by rw [e3 d hd hdd]; exact hc, by rw [if_neg (by simp [hdd])]⟩
      obtain ⟨c1, g1, g2⟩ := hc1
      obtain ⟨c', k1, k2⟩ := f3 d j m c1 hd g1
      refine ⟨c', k1, ?_⟩
      rw [k2, g2]
      by_cases a : (m, d, j) ∈ ks
      · simp [a]
      · by_cases b : (m, d, j) = (m0, d0, j0)
        · rw [if_neg a, if_pos b, if_pos (by simp [b])]
        · rw [if_neg a, if_neg b, if_neg (by rw [List.mem_cons]; tauto)]

theorem zeros_G (mp : Mp M P) (d : ℕ) (hd : d = 1 ∨ d = 2) : mp.zeros.G d = Jac.zeros (mp.Nele d) := by
  rcases hd with rfl | rfl <;> rfl

/-- The jobs of the serial branch: positions `j` of the controlled actuators of the DMs in `dm_ind`. -/
theorem mem_serialOrder (mp : Mp M P) (m : Fin M) (d a j : ℕ) : (m, d, a, j) ∈ mp.serialOrder ↔ (d = 1 ∨ d = 2 ∨ d = 8 ∨ d = 9) ∧ d ∈ mp.dmInd ∧ (mp.actEle d)[j]? = some a := by
  simp only [Mp.serialOrder, List.mem_flatMap, List.mem_finRange, true_and, List.mem_filter, List.mem_cons, List.not_mem_nil, or_false, decide_eq_true_eq, List.mem_map, Prod.mk.injEq]
  constructor
  · rintro ⟨m', d', ⟨h1, h2⟩, p, hp, rfl, rfl, rfl, rfl⟩
    exact ⟨h1, h2, by simpa using List.mk_mem_zipIdx_iff_getElem?.1 (show (p.1, p.2) ∈ _ from hp)⟩
  · rintro ⟨h1, h2, h3⟩
    exact ⟨m, d, ⟨h1, h2⟩, (a, j), by rw [List.mk_mem_zipIdx_iff_getElem?]; simpa using h3, rfl, rfl, rfl, rfl⟩

theorem mem_parOrder (mp : Mp M P) (m : Fin M) (d a : ℕ) : (m, d, a) ∈ mp.parOrder ↔ (d = 1 ∨ d = 2) ∧ a ∈ mp.actEle d := by
  simp only [Mp.parOrder, List.mem_flatMap, List.mem_map, List.mem_finRange, true_and, List.mem_cons, List.not_mem_nil, or_false, Prod.mk.injEq]
  constructor
  · rintro ⟨d', h1, a', h2, m', rfl, rfl, rfl⟩
    exact ⟨h1, h2⟩
  · rintro ⟨h1, h2⟩
    exact ⟨d, h1, a, h2, m, rfl, rfl, rfl⟩

/-- C109, serial branch with DM1 and/or DM2: it succeeds whatever is left in `mp` from earlier calls, and column `j` of a DM in `dm_ind` is that of its `j`-th controlled actuator; a DM outside `dm_ind` has zero columns. -/
theorem C109_serial (mp : Mp M P) (kd : Kind) (hk : middle mp.layout mp.coro = .ok kd) (h89 : 8 ∉ mp.dmInd ∧ 9 ∉ mp.dmInd) (hN : ∀ d, (d = 1 ∨ d = 2) → mp.Nele d = (mp.actEle d).length) (mem : ℕ → Boxes) :
    ∃ J, mp.serial mp.serialOrder mem mp.zeros = .ok J ∧ ∀ d, (d = 1 ∨ d = 2) → (J.G d).length = (mp.actEle d).length ∧
      ∀ (m : Fin M) (j a : ℕ), (mp.actEle d)[j]? = some a → ∃ c : Jac.Col M P, (J.G d)[j]? = some c ∧ c m = if d ∈ mp.dmInd then mp.col kd m d a else fun _ => 0 := by
  have hdm : ∀ x ∈ mp.serialOrder, x.2.1 = 1 ∨ x.2.1 = 2 := by
    rintro ⟨m, d, a, j⟩ hx
    obtain ⟨h1, h2, -⟩ := (mem_serialOrder mp m d a j).1 hx
    rcases h1 with h | h | rfl | rfl
    · exact .inl h
    · exact .inr h
    · exact absurd h2 h89.1
    · exact absurd h2 h89.2
  let val : Fin M × ℕ × ℕ → P → ℂ := fun x => mp.col kd x.1 x.2.1 ((mp.actEle x.2.1).getD x.2.2 0)
  have hmap : (mp.serialOrder.map fun x => ((x.1, x.2.1, x.2.2.2), mp.col kd x.1 x.2.1 x.2.2.1)) = (mp.serialOrder.map fun x => (x.1, x.2.1, x.2.2.2)).map fun x => (x, val x) := by
    rw [List.map_map]
    refine List.map_congr_left ?_
    rintro ⟨m, d, a, j⟩ hx
    have := ((mem_serialOrder mp m d a j).1 hx).2.2
    simp [val, List.getD_eq_getElem?_getD, this]
  rw [serial_store mp kd hk _ mem mp.zeros hdm, hmap]
  obtain ⟨J, e1, e2, e3⟩ := storeAll_spec val (mp.serialOrder.map fun x => (x.1, x.2.1, x.2.2.2)) mp.zeros (by
    rintro x hx
    obtain ⟨⟨m, d, a, j⟩, hy, rfl⟩ := List.mem_map.1 hx
    have hd' : d = 1 ∨ d = 2 := hdm (m, d, a, j) hy
    refine ⟨hd', ?_⟩
    simp only
    rw [zeros_G mp _ hd', Jac.zeros, List.length_replicate, hN _ hd']
    exact (List.getElem?_eq_some_iff.1 ((mem_serialOrder mp m d a j).1 hy).2.2).1)
  refine ⟨J, e1, fun d hd => ⟨by rw [e2 d hd, zeros_G mp d hd, Jac.zeros, List.length_replicate, hN d hd], fun m j a ha => ?_⟩⟩
  have hlt := (List.getElem?_eq_some_iff.1 ha).1
  obtain ⟨c, c1, c2⟩ := e3 d j m (fun _ _ => 0) hd (by rw [zeros_G mp d hd, Jac.zeros, List.getElem?_replicate, if_pos (by rw [hN d hd]; exact hlt)])
  refine ⟨c, c1, ?_⟩
  rw [c2]
  by_cases hmem : d ∈ mp.dmInd
  · rw [if_pos hmem, if_pos (List.mem_map.2 ⟨(m, d, a, j), (mem_serialOrder mp m d a j).2 ⟨by tauto, hmem, ha⟩, rfl⟩)]
    simp [val, List.getD_eq_getElem?_getD, ha]
  · rw [if_neg hmem, if_neg]
    intro h
    obtain ⟨⟨m', d', a', j'⟩, hx, he⟩ := List.mem_map.1 h
    simp only [Prod.mk.injEq] at he
    obtain ⟨rfl, rfl, rfl⟩ := he
    exact hmem ((mem_serialOrder mp m' d' a' j').1 hx).2.1

/-- C109: with both DMs controlled completely (no actuator culled) the finished parallel Jacobian equals the serial one, for any number of threads, any order in which they run, and whatever earlier calls left in `mp`. -/
theorem C109_threads_serial (mp : Mp M P) (kd : Kind) (hk : middle mp.layout mp.coro = .ok kd) (h89 : 8 ∉ mp.dmInd ∧ 9 ∉ mp.dmInd) (h12 : 1 ∈ mp.dmInd ∧ 2 ∈ mp.dmInd)
    (hA : ∀ d, (d = 1 ∨ d = 2) → mp.actEle d = List.range (mp.Nele d)) (mem mem' : ℕ → Boxes) (k : ℕ) (sched : List (Fin k)) (r : Except PyErr (JacStruct M P)) (h : mp.parallel mem k sched = some r) :
    r = mp.serial mp.serialOrder mem' mp.zeros ∧ ∃ J, r = .ok J := by
  obtain ⟨J, e1, e2⟩ := C109_serial mp kd hk h89 (fun d hd => by rw [hA d hd, List.length_range]) mem'
  rw [C109_threads mp kd hk mem k sched r h]
  have hb : ∀ x ∈ mp.parOrder, (x.2.1 = 1 ∨ x.2.1 = 2) ∧ x.2.2 < mp.Nele x.2.1 := by
    rintro ⟨m, d, a⟩ hx
    obtain ⟨hd, ha⟩ := (mem_parOrder mp m d a).1 hx
    exact ⟨hd, by rw [hA d hd, List.mem_range] at ha; exact ha⟩
  obtain ⟨J', f1, f2, f3⟩ := storeAll_spec (fun x => mp.col kd x.1 x.2.1 x.2.2) mp.parOrder mp.zeros (fun x hx => ⟨(hb x hx).1, by
    rw [zeros_G mp _ (hb x hx).1, Jac.zeros, List.length_replicate]; exact (hb x hx).2⟩)
  have hJJ : J' = J := by
    have hG : ∀ d, (d = 1 ∨ d = 2) → J'.G d = J.G d := by
      intro d hd
      have hl' : (J'.G d).length = mp.Nele d := by rw [f2 d hd, zeros_G mp d hd, Jac.zeros, List.length_replicate]
      have hl : (J.G d).length = mp.Nele d := by rw [(e2 d hd).1, hA d hd, List.length_range]
      refine List.ext_getElem (by rw [hl, hl']) fun j hj hj' => ?_
      funext m
      have hjn : j < mp.Nele d := hl ▸ hj'
      obtain ⟨c, c1, c2⟩ := (e2 d hd).2 m j j (by rw [hA d hd, List.getElem?_range hjn])
      obtain ⟨c', c1', c2'⟩ := f3 d j m (fun _ _ => 0) hd (by rw [zeros_G mp d hd, Jac.zeros, List.getElem?_replicate, if_pos hjn])
      rw [List.getElem?_eq_getElem hj'] at c1
      rw [List.getElem?_eq_getElem hj] at c1'
      rw [Option.some.inj c1, Option.some.inj c1', c2, c2', if_pos ((mem_parOrder mp m d j).2 ⟨hd, by rw [hA d hd, List.mem_range]; exact hjn⟩),
        if_pos (by rcases hd with rfl | rfl; exacts [h12.1, h12.2])]
    have h1 := hG 1 (.inl rfl)
    have h2 := hG 2 (.inr rfl)
    cases J; cases J'
    simp only [JacStruct.G] at h1 h2
    simp_all
  subst hJJ
  exact ⟨by rw [f1, e1], J', f1⟩

/-- C109: if a controlled DM8 or DM9 is in `dm_ind`, the serial Jacobian raises an exception. -/
theorem C109_dm89_violated (mp : Mp M P) (mem : ℕ → Boxes) (hM : 0 < M) (d : ℕ) (hd : d = 8 ∨ d = 9) (hi : d ∈ mp.dmInd) (ha : mp.actEle d ≠ []) :
    ∃ e, mp.serial mp.serialOrder mem mp.zeros = .error e := by
  have key : ∀ (l : List (Fin M × ℕ × ℕ × ℕ)) (mem : ℕ → Boxes) (J : JacStruct M P), (∃ x ∈ l, x.2.1 = d) → ∃ e, mp.serial l mem J = .error e := by
    intro l
    induction l with
    | nil => rintro mem J ⟨x, hx, _⟩; cases hx
    | cons y l ih =>
      obtain ⟨m, d', a, j⟩ := y
      rintro mem J ⟨x, hx, hxd⟩
      unfold Mp.serial
      simp only
      cases h1 : (mp.call mem m d' a).1 with
      | error e => exact ⟨e, rfl⟩
      | ok v =>
        simp only
        cases h2 : J.set d' j m v with
        | error e => exact ⟨e, rfl⟩
        | ok J' =>
          rcases List.mem_cons.1 hx with rfl | hx
          · exfalso
            simp only at hxd
            subst hxd
            rcases hd with rfl | rfl <;> simp [JacStruct.set] at h2
          · exact ih _ _ ⟨x, hx, hxd⟩
  obtain ⟨a, l, hal⟩ := List.exists_cons_of_ne_nil ha
  exact key _ _ _ ⟨(⟨0, hM⟩, d, a, 0), (mem_serialOrder mp _ _ _ _).2 ⟨by tauto, hi, by rw [hal]; rfl⟩, rfl⟩

/-- C109: DM8 and DM9 in `dm_ind` go unnoticed in the parallel branch: the result does not depend on `dm_ind`. -/
theorem C109_parallel_dm_ind_violated (mp : Mp M P) (inds : List ℕ) (mem : ℕ → Boxes) (k : ℕ) (sched : List (Fin k)) : ({ mp with dmInd := inds } : Mp M P).parallel mem k sched = mp.parallel mem k sched := rfl

/-- C109: every schedule of at least one thread can be continued until all calls have finished. -/
theorem C109_completes (mp : Mp M P) (mem : ℕ → Boxes) (k : ℕ) (hk : 0 < k) (sched : List (Fin k)) : ∃ more r, mp.parallel mem k (sched ++ more) = some r := by
  unfold Mp.parallel
  obtain ⟨more, h⟩ := pool_completes hk mp.tasks _ (Pool.run mp.tasks (Pool.init mem k) sched) rfl (handed_run _ _ _)
  refine ⟨more, ?_⟩
  have e : Pool.run mp.tasks (Pool.init mem k) (sched ++ more) = Pool.run mp.tasks (Pool.run mp.tasks (Pool.init mem k) sched) more := by
    unfold Pool.run; rw [List.foldl_append]
  simp only [e]
  obtain ⟨rs, hrs⟩ := mapM_isSome (fun p : (Fin M × ℕ × ℕ) × ℕ => (mp.parResult (Pool.run mp.tasks (Pool.run mp.tasks (Pool.init mem k) sched) more) p.2 p.1).map fun r => (p.1, r)) mp.parOrder.zipIdx (by
    rintro ⟨x, t⟩ hx
    have hx := List.mk_mem_zipIdx_iff_getElem?.1 hx
    have hlt : t < mp.tasks.length := by
      rw [Mp.tasks, List.length_map]
      exact (List.getElem?_eq_some_iff.1 (by simpa using hx)).1
    simpa [Mp.parResult] using h t hlt)
  rw [hrs]
  exact ⟨_, rfl⟩

/-- A concrete system: one mode, both DMs with two actuators, one of them dead. -/
noncomputable def exMp : Mp 1 Unit where
  layout := "fourier"
  coro := "LC"
  dmInd := [1, 2]
  actEle := fun _ => [0, 1]
  Nele := fun _ => 2
  dead := fun d => if d = 1 then [1] else []
  boxes := fun _ a => (a, 2 * a)
  NboxAS := fun _ => 4
  Nbox := fun _ => 2
  minimizeNI := true
  field := fun _ _ d a rds _ => d + a + (rds.map fun b => (((b a).1 + (b a).2 : ℝ) : ℂ)).sum

/-- Its Jacobian with three threads, however they run: DM1 has the response of actuator 0 and a zero column, DM2 both responses. -/
example (mem : ℕ → Boxes) (sched : List (Fin 3)) (r : Except PyErr (JacStruct 1 Unit)) (h : exMp.parallel mem 3 sched = some r) :
    ∃ J, r = .ok J ∧ ∃ c : Jac.Col 1 Unit, J.G1[1]? = some c ∧ c 0 () = 0 := by
  obtain ⟨h1, J, rfl⟩ := C109_threads_serial exMp .lyot (by simp [exMp, middle]) (by simp [exMp]) (by simp [exMp]) (fun _ _ => rfl) mem mem 3 sched r h
  obtain ⟨J', e1, e2⟩ := C109_serial exMp .lyot (by simp [exMp, middle]) (by simp [exMp]) (fun _ _ => rfl) mem
  rw [e1] at h1
  obtain rfl := Except.ok.inj h1
  refine ⟨J, rfl, ?_⟩
  obtain ⟨c, c1, c2⟩ := (e2 1 (.inl rfl)).2 0 1 1 rfl
  exact ⟨c, c1, by rw [c2]; simp [exMp, Mp.col]⟩

example (mem : ℕ → Boxes) : ∃ sched r, exMp.parallel mem 3 sched = some r := by
  obtain ⟨more, r, h⟩ := C109_completes exMp mem 3 (by norm_num) []
  exact ⟨_, r, h⟩

end Verif.JacWork
