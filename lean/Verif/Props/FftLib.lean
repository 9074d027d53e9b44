import Verif.Model.FftLib
import Mathlib.Tactic.FieldSimp
import Mathlib.Tactic.Ring

/-!
C148: the choice of the FFT.

The specification speaks of histories: which acts occur in them, and in which session. The words
"session `s` uses `l`" mean that the propagations made there run with `l` (`usedBy … = some (ok l)`).
-/

namespace Verif.FftLib

variable {D : Type}

/-- The act is a call of `prop_use_ffti`. -/
def IsFfti (a : Act D) : Prop := ∃ s dir b, a = .useFfti s dir b

/-- The act is a call of `prop_use_fftw(DISABLE=True)`. -/
def IsFftwOff (a : Act D) : Prop := ∃ s, a = .useFftw s true

/-- The act is a call of `prop_use_fftw()`, or the making of an error map. -/
def IsFftwOn (a : Act D) : Prop := (∃ s, a = .useFftw s false) ∨ ∃ s, a = .errorMap s

theorem acts_append (m : Machine D) (w : World) (as bs : List (Act D)) :
    acts m w (as ++ bs) = acts m (acts m w as) bs := by
  simp [acts, List.foldl_append]

theorem acts_cons (m : Machine D) (w : World) (a : Act D) (bs : List (Act D)) :
    acts m w (a :: bs) = acts m (act m w a) bs := rfl

/-- Invariants of histories whose acts all keep them. -/
theorem acts_keep (m : Machine D) (I : World → Prop) (Q : Act D → Prop)
    (hI : ∀ w a, I w → Q a → I (act m w a)) (as : List (Act D)) :
    ∀ w, I w → (∀ a ∈ as, Q a) → I (acts m w as) := by
  induction as with
  | nil => intro w h _; exact h
  | cons a as ih =>
    intro w h hq
    exact ih _ (hI w a h (hq a (by simp))) (fun b hb => hq b (by simp [hb]))

/-- The acts of a history `as`, all of which satisfy `Q`, keep `H` of the home directory; a session
that is started has `S`, and the acts keep `S`. Then every session that had `S` or is started in
`as` has `S`. -/
theorem later (m : Machine D) (H : Home → Prop) (S : Flags → Prop) (Q : Act D → Prop)
    (hstart : ∀ h, H h → S (importFlags h))
    (hw : ∀ s b h f, Q (.useFftw s b) → H h →
      H (propUseFftw m b h f).1 ∧ (S f → S (propUseFftw m b h f).2))
    (he : ∀ s h f, Q (.errorMap s) → H h →
      H (propUseFftw m false h f).1 ∧ (S f → S (propUseFftw m false h f).2))
    (hi : ∀ s dir b h f, Q (.useFfti s dir b) → H h →
      H (propUseFfti m dir b h f).1 ∧ (S f → S (propUseFfti m dir b h f).2))
    (t : ℕ) (as : List (Act D)) :
    ∀ w, H w.home → (∀ a ∈ as, Q a) →
      ((∃ f, w.sess t = some f ∧ S f) ∨ Act.start t ∈ as) →
      H (acts m w as).home ∧ ∃ f, (acts m w as).sess t = some f ∧ S f := by
  have key : ∀ w s k, H w.home →
      (∀ f, H (k w.home f).1 ∧ (S f → S (k w.home f).2)) →
      H (inSession w s k).home ∧
        ((∃ f, w.sess t = some f ∧ S f) → ∃ f, (inSession w s k).sess t = some f ∧ S f) := by
    intro w s k hH hk
    unfold inSession
    cases hs : w.sess s with
    | none => exact ⟨hH, fun h => h⟩
    | some f =>
      refine ⟨(hk f).1, ?_⟩
      rintro ⟨g, hg, hSg⟩
      by_cases hts : t = s
      · subst hts
        rw [hs] at hg
        cases hg
        exact ⟨_, by simp, (hk f).2 hSg⟩
      · exact ⟨g, by simp [hts, hg], hSg⟩
  have step : ∀ w a, H w.home → Q a → H (act m w a).home ∧
      (((∃ f, w.sess t = some f ∧ S f) ∨ a = .start t) → ∃ f, (act m w a).sess t = some f ∧ S f) := by
    intro w a hH hQ
    cases a with
    | start s =>
      refine ⟨hH, ?_⟩
      intro h
      by_cases hts : t = s
      · exact ⟨_, by simp [act, hts], hstart _ hH⟩
      · rcases h with ⟨f, hf, hS⟩ | h
        · exact ⟨f, by simp [act, hts, hf], hS⟩
        · cases h; exact absurd rfl hts
    | useFftw s b =>
      obtain ⟨k1, k2⟩ := key w s (propUseFftw m b) hH (fun f => hw s b w.home f hQ hH)
      refine ⟨k1, ?_⟩
      rintro (h | h)
      · exact k2 h
      · cases h
    | useFfti s dir b =>
      obtain ⟨k1, k2⟩ := key w s (propUseFfti m dir b) hH (fun f => hi s dir b w.home f hQ hH)
      refine ⟨k1, ?_⟩
      rintro (h | h)
      · exact k2 h
      · cases h
    | errorMap s =>
      obtain ⟨k1, k2⟩ := key w s (propUseFftw m false) hH (fun f => he s w.home f hQ hH)
      refine ⟨k1, ?_⟩
      rintro (h | h)
      · exact k2 h
      · cases h
  induction as with
  | nil =>
    intro w hH _ h
    rcases h with h | h
    · exact ⟨hH, h⟩
    · cases h
  | cons a as ih =>
    intro w hH hQ h
    obtain ⟨s1, s2⟩ := step w a hH (hQ a (by simp))
    refine ih _ s1 (fun b hb => hQ b (by simp [hb])) ?_
    rcases h with h | h
    · exact Or.inl (s2 (Or.inl h))
    · rcases List.mem_cons.1 h with h | h
      · exact Or.inl (s2 (Or.inr h.symm))
      · exact Or.inr h

/-- FFTW lasts. On a machine with pyfftw, after `prop_use_fftw()` in a session `s` that has imported
the package, with Intel's library not chosen (neither in `s` nor in the home directory), and whatever
is done later except `prop_use_fftw(DISABLE=True)` and `prop_use_ffti`: `s` itself and every session
started since use FFTW, and prescriptions begin there. -/
theorem C148_fftw_lasts (m : Machine D) (hm : m.pyfftw = true) (w : World) (s : ℕ)
    (f : Flags) (hf : w.sess s = some f) (hi : f.useFfti = false) (hh : w.home.ffti = false)
    (as : List (Act D)) (has : ∀ a ∈ as, ¬ IsFftwOff a ∧ ¬ IsFfti a)
    (t : ℕ) (ht : t = s ∨ Act.start t ∈ as) :
    usedBy m (acts m w (.useFftw s false :: as)) t = some (.ok .fftw) ∧
    beginsIn m (acts m w (.useFftw s false :: as)) t = some (.ok ()) := by
  rw [acts_cons]
  have h := later m (fun h => h.ffti = false ∧ h.fftw = true)
    (fun f => f.useFftw = true ∧ f.useFfti = false) (fun a => ¬ IsFftwOff a ∧ ¬ IsFfti a)
    (by rintro ⟨a, b⟩ ⟨h1, h2⟩; simp_all [importFlags])
    (by
      intro s b h f hQ hH
      cases b with
      | true => exact absurd ⟨s, rfl⟩ hQ.1
      | false => simp_all [propUseFftw])
    (by intro s h f hQ hH; simp_all [propUseFftw])
    (by intro s dir b h f hQ hH; exact absurd ⟨s, dir, b, rfl⟩ hQ.2)
    t as (act m w (.useFftw s false))
    (by simp [act, inSession, hf, propUseFftw, hm, hh]) has
    (by
      rcases ht with rfl | ht
      · left
        exact ⟨⟨true, false⟩, by simp [act, inSession, hf, propUseFftw, hm, hi], rfl, rfl⟩
      · exact Or.inr ht)
  obtain ⟨_, g, hg, h1, h2⟩ := h
  simp [usedBy, beginsIn, hg, fftOf, propFftw, beginOf, h1, h2, hm]

/-- NumPy lasts. After `prop_use_fftw(DISABLE=True)` in a session that has not chosen Intel's
library, and with no file of Intel's library in the home directory, `s` and every session started
since use NumPy's FFT, whatever is done except a choice of a library and the making of an error map. -/
theorem C148_disable_lasts (m : Machine D) (w : World) (s : ℕ)
    (f : Flags) (hf : w.sess s = some f) (hh : w.home.ffti = false)
    (as : List (Act D)) (has : ∀ a ∈ as, ¬ IsFftwOn a ∧ ¬ IsFfti a)
    (t : ℕ) (ht : t = s ∨ Act.start t ∈ as) :
    usedBy m (acts m w (.useFftw s true :: as)) t = some (.ok .numpy) ∧
    beginsIn m (acts m w (.useFftw s true :: as)) t = some (.ok ()) := by
  rw [acts_cons]
  have h := later m (fun h => h.ffti = false ∧ h.fftw = false)
    (fun f => f.useFftw = false) (fun a => ¬ IsFftwOn a ∧ ¬ IsFfti a)
    (by rintro ⟨a, b⟩ ⟨h1, h2⟩; simp_all [importFlags])
    (by
      intro s b h f hQ hH
      cases b with
      | true => simp_all [propUseFftw]
      | false => exact absurd (Or.inl ⟨s, rfl⟩) hQ.1)
    (by intro s h f hQ hH; exact absurd (Or.inr ⟨s, rfl⟩) hQ.1)
    (by intro s dir b h f hQ hH; exact absurd ⟨s, dir, b, rfl⟩ hQ.2)
    t as (act m w (.useFftw s true))
    (by simp [act, inSession, hf, propUseFftw, hh]) has
    (by
      rcases ht with rfl | ht
      · left
        exact ⟨⟨false, f.useFfti⟩, by simp [act, inSession, hf, propUseFftw], rfl⟩
      · exact Or.inr ht)
  obtain ⟨_, g, hg, h1⟩ := h
  simp [usedBy, beginsIn, hg, fftOf, beginOf, h1]

/-- Intel's library lasts. When it loads from its default directory and from the directory given,
and pyfftw is installed, then after `prop_use_ffti(MKL_DIR=dir)` the session and every session
started since use it, whatever is done except `prop_use_ffti` and `prop_use_fftw(DISABLE=True)`;
`prop_use_fftw()` is among what changes nothing. -/
theorem C148_ffti_lasts (m : Machine D) (hm : m.pyfftw = true) (dir : Option D)
    (hd : m.mkl dir = true) (h0 : m.mkl none = true) (w : World) (s : ℕ)
    (f : Flags) (hf : w.sess s = some f)
    (as : List (Act D)) (has : ∀ a ∈ as, ¬ IsFftwOff a ∧ ¬ IsFfti a)
    (t : ℕ) (ht : t = s ∨ Act.start t ∈ as) :
    usedBy m (acts m w (.useFfti s dir false :: as)) t = some (.ok .mkl) ∧
    beginsIn m (acts m w (.useFfti s dir false :: as)) t = some (.ok ()) := by
  rw [acts_cons]
  have h := later m (fun h => h.ffti = true)
    (fun f => f.useFftw = true ∧ f.useFfti = true) (fun a => ¬ IsFftwOff a ∧ ¬ IsFfti a)
    (by rintro ⟨a, b⟩ h1; simp_all [importFlags])
    (by
      intro s b h f hQ hH
      cases b with
      | true => exact absurd ⟨s, rfl⟩ hQ.1
      | false => simp_all [propUseFftw])
    (by intro s h f hQ hH; simp_all [propUseFftw])
    (by intro s dir b h f hQ hH; exact absurd ⟨s, dir, b, rfl⟩ hQ.2)
    t as (act m w (.useFfti s dir false))
    (by simp [act, inSession, hf, propUseFfti, hd]) has
    (by
      rcases ht with rfl | ht
      · left
        exact ⟨⟨true, true⟩, by simp [act, inSession, hf, propUseFfti, hd], rfl, rfl⟩
      · exact Or.inr ht)
  obtain ⟨_, g, hg, h1, h2⟩ := h
  simp [usedBy, beginsIn, hg, fftOf, propFftw, beginOf, h1, h2, h0]

/-- Later sessions keep Intel's library even after `prop_use_fftw(DISABLE=True)` in any session, and
with or without pyfftw: only `prop_use_ffti` takes it away from sessions to come. -/
theorem C148_ffti_next_session (m : Machine D) (dir : Option D)
    (hd : m.mkl dir = true) (h0 : m.mkl none = true) (w : World) (s : ℕ)
    (f : Flags) (hf : w.sess s = some f)
    (as : List (Act D)) (has : ∀ a ∈ as, ¬ IsFfti a) (t : ℕ) :
    usedBy m (acts m w (.useFfti s dir false :: as ++ [.start t])) t = some (.ok .mkl) := by
  rw [acts_append]
  have hH : (acts m w (.useFfti s dir false :: as)).home.ffti = true := by
    rw [acts_cons]
    refine acts_keep m (fun w => w.home.ffti = true) (fun a => ¬ IsFfti a) ?_ as _ ?_ has
    · intro w a hI hQ
      cases a with
      | start s => exact hI
      | useFftw s b =>
        simp only [act, inSession]
        cases w.sess s with
        | none => exact hI
        | some f => simp only [propUseFftw]; split_ifs <;> exact hI
      | useFfti s dir b => exact absurd ⟨s, dir, b, rfl⟩ hQ
      | errorMap s =>
        simp only [act, inSession]
        cases w.sess s with
        | none => exact hI
        | some f => simp only [propUseFftw]; split_ifs <;> exact hI
    · simp [act, inSession, hf, propUseFfti, hd]
  simp [acts, act, usedBy, fftOf, propFftw, importFlags] at hH ⊢
  simp [hH, h0]

/-- What the home directory says. After any history, the file of FFTW is there exactly if the last
call of `prop_use_fftw` or error map (in a session with the package) was a call without DISABLE or
an error map, and pyfftw is installed. -/
theorem C148_file_of_fftw (m : Machine D) (w : World) (before after : List (Act D)) (s : ℕ)
    (hs : (acts m w before).sess s ≠ none) (hafter : ∀ a ∈ after, ¬ IsFftwOn a ∧ ¬ IsFftwOff a) :
    ((acts m w (before ++ .useFftw s true :: after)).home.fftw = false) ∧
    ((acts m w (before ++ .useFftw s false :: after)).home.fftw = m.pyfftw) ∧
    ((acts m w (before ++ .errorMap s :: after)).home.fftw = m.pyfftw) := by
  obtain ⟨f, hf⟩ := Option.ne_none_iff_exists'.1 hs
  have hkeep : ∀ (v : Bool) w', w'.home.fftw = v → (acts m w' after).home.fftw = v := by
    intro v w' hv
    refine acts_keep m (fun w => w.home.fftw = v) (fun a => ¬ IsFftwOn a ∧ ¬ IsFftwOff a) ?_ after _
      hv hafter
    intro w a hI hQ
    cases a with
    | start s => exact hI
    | useFftw s b =>
      cases b with
      | true => exact absurd ⟨s, rfl⟩ hQ.2
      | false => exact absurd (Or.inl ⟨s, rfl⟩) hQ.1
    | useFfti s dir b =>
      simp only [act, inSession]
      cases w.sess s with
      | none => exact hI
      | some f => simp only [propUseFfti]; split_ifs <;> exact hI
    | errorMap s => exact absurd (Or.inr ⟨s, rfl⟩) hQ.1
  simp only [acts_append, acts_cons]
  refine ⟨hkeep _ _ ?_, hkeep _ _ ?_, hkeep _ _ ?_⟩
  · simp [act, inSession, hf, propUseFftw]
  · cases hm : m.pyfftw <;> simp [act, inSession, hf, propUseFftw, hm]
  · cases hm : m.pyfftw <;> simp [act, inSession, hf, propUseFftw, hm]

/-- … and the file of Intel's library exactly if the last call of `prop_use_ffti` had no DISABLE and
found the library. -/
theorem C148_file_of_ffti (m : Machine D) (w : World) (before after : List (Act D)) (s : ℕ)
    (dir : Option D) (hs : (acts m w before).sess s ≠ none) (hafter : ∀ a ∈ after, ¬ IsFfti a) :
    ((acts m w (before ++ .useFfti s dir true :: after)).home.ffti = false) ∧
    ((acts m w (before ++ .useFfti s dir false :: after)).home.ffti = m.mkl dir) := by
  obtain ⟨f, hf⟩ := Option.ne_none_iff_exists'.1 hs
  have hkeep : ∀ (v : Bool) w', w'.home.ffti = v → (acts m w' after).home.ffti = v := by
    intro v w' hv
    refine acts_keep m (fun w => w.home.ffti = v) (fun a => ¬ IsFfti a) ?_ after _ hv hafter
    intro w a hI hQ
    cases a with
    | start s => exact hI
    | useFftw s b =>
      simp only [act, inSession]
      cases w.sess s with
      | none => exact hI
      | some f => simp only [propUseFftw]; split_ifs <;> exact hI
    | useFfti s dir b => exact absurd ⟨s, dir, b, rfl⟩ hQ
    | errorMap s =>
      simp only [act, inSession]
      cases w.sess s with
      | none => exact hI
      | some f => simp only [propUseFftw]; split_ifs <;> exact hI
  simp only [acts_append, acts_cons]
  refine ⟨hkeep _ _ ?_, hkeep _ _ ?_⟩
  · simp [act, inSession, hf, propUseFfti]
  · cases hm : m.mkl dir <;> simp [act, inSession, hf, propUseFfti, hm]

/-- A session starts with what the home directory says: Intel's library if its file is there, else
FFTW if its file is there, else NumPy. -/
theorem C148_start (m : Machine D) (w : World) (s : ℕ) (hp : m.pyfftw = true) (h0 : m.mkl none = true) :
    usedBy m (act m w (.start s)) s = some (.ok
      (if w.home.ffti = true then .mkl else if w.home.fftw = true then .fftw else .numpy)) := by
  cases h1 : w.home.ffti <;> cases h2 : w.home.fftw <;>
    simp [usedBy, act, importFlags, fftOf, propFftw, h1, h2, hp, h0]

/-- For the proof of `C148_available`: what the files say is there. -/
def HomeOk (m : Machine D) (h : Home) : Prop :=
  (h.ffti = true → m.mkl none = true) ∧ (h.fftw = true → m.pyfftw = true)

/-- For the proof of `C148_available`: what the flags say is there. -/
def FlagsOk (m : Machine D) (f : Flags) : Prop :=
  (f.useFfti = true → m.mkl none = true) ∧ (f.useFftw = true → f.useFfti = true ∨ m.pyfftw = true)

theorem ok_import (m : Machine D) (h : Home) (hh : HomeOk m h) : FlagsOk m (importFlags h) := by
  obtain ⟨a, b⟩ := h
  cases a <;> cases b <;> simp_all [HomeOk, FlagsOk, importFlags]

theorem ok_fftw (m : Machine D) (b : Bool) (h : Home) (f : Flags) (hh : HomeOk m h)
    (hf : FlagsOk m f) : HomeOk m (propUseFftw m b h f).1 ∧ FlagsOk m (propUseFftw m b h f).2 := by
  unfold propUseFftw
  cases b <;> cases hp : m.pyfftw <;> simp_all [HomeOk, FlagsOk]

theorem ok_ffti (m : Machine D) (b : Bool) (h : Home) (f : Flags) (hh : HomeOk m h) :
    HomeOk m (propUseFfti m none b h f).1 ∧ FlagsOk m (propUseFfti m none b h f).2 := by
  unfold propUseFfti
  cases b <;> cases hp : m.mkl none <;> simp_all [HomeOk, FlagsOk]

theorem ok_inSession (m : Machine D) (w : World) (s : ℕ) (k : Home → Flags → Home × Flags)
    (hk : ∀ f, FlagsOk m f → HomeOk m (k w.home f).1 ∧ FlagsOk m (k w.home f).2)
    (hH : HomeOk m w.home) (hI : ∀ t f, w.sess t = some f → FlagsOk m f) :
    HomeOk m (inSession w s k).home ∧ ∀ t f, (inSession w s k).sess t = some f → FlagsOk m f := by
  unfold inSession
  cases hs : w.sess s with
  | none => exact ⟨hH, hI⟩
  | some f =>
    obtain ⟨k1, k2⟩ := hk f (hI s f hs)
    refine ⟨k1, ?_⟩
    intro t g hg
    by_cases hts : t = s
    · simp only [hts, if_true, Option.some.injEq] at hg
      subst hg
      exact k2
    · simp only [hts, if_false] at hg
      exact hI t g hg

/-- The FFT in use is always there. From a home directory without the two files, with no session
open, for every history in which no directory is given for Intel's library, on every machine: no
propagation and no beginning of a prescription stops for want of a library. -/
theorem C148_available (m : Machine D) (as : List (Act D))
    (has : ∀ a ∈ as, ∀ s dir b, a = .useFfti s dir b → dir = none) (t : ℕ)
    (f : Flags) (ht : (acts m ⟨⟨false, false⟩, fun _ => none⟩ as).sess t = some f) :
    (∃ l, usedBy m (acts m ⟨⟨false, false⟩, fun _ => none⟩ as) t = some (.ok l)) ∧
    beginsIn m (acts m ⟨⟨false, false⟩, fun _ => none⟩ as) t = some (.ok ()) := by
  have hall := acts_keep m
    (fun w => HomeOk m w.home ∧ ∀ t f, w.sess t = some f → FlagsOk m f)
    (fun a => ∀ s dir b, a = .useFfti s dir b → dir = none)
    (by
      intro w a hI hQ
      cases a with
      | start s =>
        refine ⟨hI.1, ?_⟩
        intro t f hf
        by_cases hts : t = s
        · simp only [act, hts, if_true, Option.some.injEq] at hf
          subst hf
          exact ok_import m _ hI.1
        · simp only [act, hts, if_false] at hf
          exact hI.2 t f hf
      | useFftw s b =>
        exact ok_inSession m w s _ (fun f hf => ok_fftw m b w.home f hI.1 hf) hI.1 hI.2
      | useFfti s dir b =>
        have hdir := hQ s dir b rfl
        subst hdir
        exact ok_inSession m w s _ (fun f _ => ok_ffti m b w.home f hI.1) hI.1 hI.2
      | errorMap s =>
        exact ok_inSession m w s _ (fun f hf => ok_fftw m false w.home f hI.1 hf) hI.1 hI.2)
    as ⟨⟨false, false⟩, fun _ => none⟩
    ⟨⟨fun h => (by cases h), fun h => (by cases h)⟩, fun _ _ h => (by cases h)⟩ has
  obtain ⟨h1, h2⟩ := hall.2 t f ht
  simp only [usedBy, beginsIn, ht, Option.map_some]
  clear ht hall
  obtain ⟨a, b⟩ := f
  cases a <;> cases b <;> simp_all [fftOf, propFftw, beginOf]

/-- Violated: an error map is not only a map. In every state of a machine with pyfftw and without
Intel's library chosen, making an error map in a session (that reads no file) turns FFTW on for that
session and for all the sessions started since, even right after `prop_use_fftw(DISABLE=True)`, while
the map itself is made with NumPy. -/
theorem C148_violated_error_map (m : Machine D) (hm : m.pyfftw = true) (w : World) (s : ℕ)
    (f : Flags) (hf : w.sess s = some f) (hi : f.useFfti = false) (hh : w.home.ffti = false)
    (t : ℕ) (hts : t ≠ s) :
    usedBy m (acts m w [.useFftw s true, .errorMap s, .start t]) s = some (.ok .fftw) ∧
    usedBy m (acts m w [.useFftw s true, .errorMap s, .start t]) t = some (.ok .fftw) ∧
    usedBy m (acts m w [.useFftw s true, .start t]) s = some (.ok .numpy) ∧
    usedBy m (acts m w [.useFftw s true, .start t]) t = some (.ok .numpy) ∧
    mapLib = .numpy := by
  simp [acts, act, inSession, hf, propUseFftw, hm, usedBy, fftOf, propFftw, importFlags, hi, hh,
    hts.symm, mapLib]

/-- Violated: without pyfftw, an error map turns Intel's library off, in that session only; the next
session has it again. -/
theorem C148_violated_error_map_ffti (m : Machine D) (hm : m.pyfftw = false) (dir : Option D)
    (hd : m.mkl dir = true) (h0 : m.mkl none = true) (w : World) (s : ℕ)
    (f : Flags) (hf : w.sess s = some f) (t : ℕ) (hts : t ≠ s) :
    usedBy m (acts m w [.useFfti s dir false]) s = some (.ok .mkl) ∧
    usedBy m (acts m w [.useFfti s dir false, .errorMap s, .start t]) s = some (.ok .numpy) ∧
    usedBy m (acts m w [.useFfti s dir false, .errorMap s, .start t]) t = some (.ok .mkl) := by
  simp [acts, act, inSession, hf, propUseFftw, propUseFfti, hm, hd, h0, usedBy, fftOf, propFftw,
    importFlags, hts.symm]

/-- Violated: `DISABLE` is said to bring NumPy's FFT back for the future. With both files there,
each of the two switches does so in its own session only; sessions started next have the other
library. -/
theorem C148_violated_disable (m : Machine D) (hm : m.pyfftw = true) (h0 : m.mkl none = true)
    (w : World) (s : ℕ) (f : Flags) (hf : w.sess s = some f) (t : ℕ) (hts : t ≠ s) :
    (let w' := acts m w [.useFftw s false, .useFfti s none false, .useFfti s none true, .start t]
     usedBy m w' s = some (.ok .numpy) ∧ usedBy m w' t = some (.ok .fftw)) ∧
    (let w' := acts m w [.useFftw s false, .useFfti s none false, .useFftw s true, .start t]
     usedBy m w' s = some (.ok .numpy) ∧ usedBy m w' t = some (.ok .mkl)) := by
  simp [acts, act, inSession, hf, propUseFftw, propUseFfti, hm, h0, usedBy, fftOf, propFftw,
    importFlags, hts.symm]

/-- Violated: a directory given for Intel's library is only tried, not kept. Where the library is
there and not in the default directory, `prop_use_ffti(MKL_DIR=…)` succeeds, and then every
propagation stops with SystemExit, in that session and in all the sessions started since, until the
next call of `prop_use_ffti` or `prop_use_fftw(DISABLE=True)`. -/
theorem C148_violated_directory (m : Machine D) (hm : m.pyfftw = true) (d : D)
    (hd : m.mkl (some d) = true) (h0 : m.mkl none = false) (w : World) (s : ℕ)
    (f : Flags) (hf : w.sess s = some f)
    (as : List (Act D)) (has : ∀ a ∈ as, ¬ IsFftwOff a ∧ ¬ IsFfti a)
    (t : ℕ) (ht : t = s ∨ Act.start t ∈ as) :
    usedBy m (acts m w (.useFfti s (some d) false :: as)) t = some (.error .systemExit) ∧
    beginsIn m (acts m w (.useFfti s (some d) false :: as)) t = some (.ok ()) := by
  rw [acts_cons]
  have h := later m (fun h => h.ffti = true)
    (fun f => f.useFftw = true ∧ f.useFfti = true) (fun a => ¬ IsFftwOff a ∧ ¬ IsFfti a)
    (by rintro ⟨a, b⟩ h1; simp_all [importFlags])
    (by
      intro s b h f hQ hH
      cases b with
      | true => exact absurd ⟨s, rfl⟩ hQ.1
      | false => simp_all [propUseFftw])
    (by intro s h f hQ hH; simp_all [propUseFftw])
    (by intro s dir b h f hQ hH; exact absurd ⟨s, dir, b, rfl⟩ hQ.2)
    t as (act m w (.useFfti s (some d) false))
    (by simp [act, inSession, hf, propUseFfti, hd]) has
    (by
      rcases ht with rfl | ht
      · left
        exact ⟨⟨true, true⟩, by simp [act, inSession, hf, propUseFfti, hd], rfl, rfl⟩
      · exact Or.inr ht)
  obtain ⟨_, g, hg, h1, h2⟩ := h
  simp [usedBy, beginsIn, hg, fftOf, propFftw, beginOf, h1, h2, h0]

/-- The choice changes no result: with each of the three, on an `n × n` grid, the forward transform
of a propagation is the sum over the pixels divided by `n`, and the backward one too. -/
theorem C148_same_result {A : Type} (F B : (A → ℂ) → A → ℂ) (n : ℂ) (hn : n ≠ 0) (l : Lib)
    (a : A → ℂ) (p : A) :
    toFreq F (n * n) n l a p = F a p / n ∧ fromFreq B (n * n) n l a p = B a p / n := by
  cases l <;> constructor <;> simp only [toFreq, fromFreq, forward, backward] <;> field_simp

/-- The hypotheses are met: a machine with pyfftw and with Intel's library in its default directory,
a first session, FFTW chosen there, then two more sessions. -/
example : let m : Machine ℕ := ⟨true, fun _ => true⟩
    let w := acts m ⟨⟨false, false⟩, fun _ => none⟩ [.start 0]
    w.sess 0 = some ⟨false, false⟩ ∧ w.home.ffti = false ∧
    usedBy m (acts m w [.useFftw 0 false, .start 1, .errorMap 1, .start 2]) 2 = some (.ok .fftw) ∧
    usedBy m (acts m w [.useFfti 0 none false, .useFftw 0 false, .start 1]) 1 = some (.ok .mkl) ∧
    usedBy m (acts m w [.useFfti 0 none false, .useFftw 0 false, .start 1]) 0 = some (.ok .mkl) := by
  refine ⟨rfl, rfl, rfl, rfl, rfl⟩

/-- … and a machine with the library elsewhere. -/
example : let m : Machine ℕ := ⟨true, fun d => d == some 3⟩
    let w := acts m ⟨⟨false, false⟩, fun _ => none⟩ [.start 0]
    usedBy m (acts m w [.useFfti 0 none false]) 0 = some (.ok .numpy) ∧
    usedBy m (acts m w [.useFfti 0 (some 3) false, .start 1]) 1 = some (.error .systemExit) := by
  refine ⟨rfl, rfl⟩

end Verif.FftLib
