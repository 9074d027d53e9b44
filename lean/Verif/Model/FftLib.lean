import Mathlib.Data.Complex.Basic

/-!
Which FFT the propagation routines use.

Modelled: falco/proper/__init__.py 184-214 (what a session finds at import), prop_use_fftw.py 40-60,
prop_use_ffti.py 41-106, prop_fftw.py 43-74 and prop_ffti.py 51-150 (what runs, and with which
factor), prop_begin.py 57-58 with prop_load_fftw_wisdom.py 18-24 (what is needed to begin), the choice
and the factors in prop_ptp.py 68-88, prop_wts.py 52-63 and prop_stw.py 55-65, and the call of
prop_use_fftw at prop_psd_errormap.py 186.

Simplified: one home directory, shared by all sessions, and a machine on which no package comes or
goes while the history runs; the system is one of those that the code knows (Linux, Darwin, nt); the
number of threads and the wisdom of FFTW are not modelled, they change the time and not the sums.
-/

namespace Verif.FftLib

/-- The machine: does `import pyfftw` work, and does the Intel library load from a directory given
(`some d`) or from the default one (`none`) (prop_use_fftw.py 43-49, prop_use_ffti.py 49-91). -/
structure Machine (D : Type) where
  pyfftw : Bool
  mkl : Option D → Bool

/-- The two files of the home directory, `~/.proper_use_ffti` and `~/.proper_use_fftw`
(falco/proper/__init__.py 206-208). -/
structure Home where
  ffti : Bool
  fftw : Bool

/-- The two flags `proper.use_fftw` and `proper.use_ffti` of one Python session
(falco/proper/__init__.py 185-186). -/
structure Flags where
  useFftw : Bool
  useFfti : Bool

/-- The flags after `import falco.proper` (falco/proper/__init__.py 185-214). -/
def importFlags (h : Home) : Flags :=
  if h.ffti then ⟨true, true⟩ else if h.fftw then ⟨true, false⟩ else ⟨false, false⟩

/-- `prop_use_fftw(DISABLE=disable)` (prop_use_fftw.py 40-60). The flag `use_ffti` is not touched. -/
def propUseFftw {D : Type} (m : Machine D) (disable : Bool) (h : Home) (f : Flags) : Home × Flags :=
  if disable || !m.pyfftw then ({ h with fftw := false }, { f with useFftw := false })
  else ({ h with fftw := true }, { f with useFftw := true })

/-- `prop_use_ffti(MKL_DIR=dir, DISABLE=disable)` (prop_use_ffti.py 41-106). -/
def propUseFfti {D : Type} (m : Machine D) (dir : Option D) (disable : Bool) (h : Home) (_f : Flags) :
    Home × Flags :=
  if disable || !m.mkl dir then ({ h with ffti := false }, ⟨false, false⟩)
  else ({ h with ffti := true }, ⟨true, true⟩)

/-- The FFTs. -/
inductive Lib | numpy | fftw | mkl
  deriving DecidableEq

/-- What ends a call: `ImportError` (prop_fftw.py 60, prop_load_fftw_wisdom.py 24) or `SystemExit`
(prop_ffti.py 61, 71, 80). -/
inductive Stop | importError | systemExit
  deriving DecidableEq

/-- `prop_fftw(a, direction)` (prop_fftw.py 51-72): Intel's library, from the default directory
(`fft2` and `ifft2` of prop_ffti.py 135-171 give no `mkl_dir`), or pyfftw. -/
def propFftw {D : Type} (m : Machine D) (f : Flags) : Except Stop Lib :=
  if f.useFfti then
    if m.mkl none then .ok .mkl else .error .systemExit
  else
    if m.pyfftw then .ok .fftw else .error .importError

/-- The FFT of a propagation (prop_ptp.py 68 and 84, prop_wts.py 52 and 59, prop_stw.py 55 and 62). -/
def fftOf {D : Type} (m : Machine D) (f : Flags) : Except Stop Lib :=
  if f.useFftw then propFftw m f else .ok .numpy

/-- Does `prop_begin` get past the wisdom (prop_begin.py 57-58, prop_load_fftw_wisdom.py 18-24)? -/
def beginOf {D : Type} (m : Machine D) (f : Flags) : Except Stop Unit :=
  if f.useFftw && !f.useFfti then
    (if m.pyfftw then .ok () else .error .importError)
  else .ok ()

/-- What a user does: import the package in session `s`, call one of the two switches there, or make
an error map there that is not read from a file (prop_psd_errormap.py 140-186). -/
inductive Act (D : Type)
  | start (s : ℕ)
  | useFftw (s : ℕ) (disable : Bool)
  | useFfti (s : ℕ) (dir : Option D) (disable : Bool)
  | errorMap (s : ℕ)

/-- The home directory and the flags of every session that has imported the package. -/
structure World where
  home : Home
  sess : ℕ → Option Flags

/-- Run one of the switches in a session; nothing happens where the package is not imported. -/
def inSession (w : World) (s : ℕ) (k : Home → Flags → Home × Flags) : World :=
  match w.sess s with
  | none => w
  | some f => ⟨(k w.home f).1, fun t => if t = s then some (k w.home f).2 else w.sess t⟩

/-- One act. An error map calls `prop_use_fftw()` (prop_psd_errormap.py 186). -/
def act {D : Type} (m : Machine D) (w : World) : Act D → World
  | .start s => { w with sess := fun t => if t = s then some (importFlags w.home) else w.sess t }
  | .useFftw s disable => inSession w s (propUseFftw m disable)
  | .useFfti s dir disable => inSession w s (propUseFfti m dir disable)
  | .errorMap s => inSession w s (propUseFftw m false)

/-- A history. -/
def acts {D : Type} (m : Machine D) (w : World) (as : List (Act D)) : World := as.foldl (act m) w

/-- The FFT that a propagation in session `s` uses (`none`: the package is not imported there). -/
def usedBy {D : Type} (m : Machine D) (w : World) (s : ℕ) : Option (Except Stop Lib) :=
  (w.sess s).map (fftOf m)

/-- Does a prescription in session `s` begin? -/
def beginsIn {D : Type} (m : Machine D) (w : World) (s : ℕ) : Option (Except Stop Unit) :=
  (w.sess s).map (beginOf m)

/-- The FFT of the error map itself: `prop_use_fftw() == 1` compares `None` with 1, so it is NumPy's
(prop_psd_errormap.py 186-191; prop_use_fftw.py 60). -/
def mapLib : Lib := .numpy

section sums

variable {A : Type}

/-- The forward sums of a library, over the sums `F` without any factor: `fft2` of NumPy, the
`FFTW_FORWARD` call of pyfftw, and `DftiComputeForward` with its default factor 1 (prop_fftw.py 53,
68; prop_ffti.py 109-114). -/
def forward (F : (A → ℂ) → A → ℂ) : Lib → (A → ℂ) → A → ℂ
  | .numpy, a => F a
  | .fftw, a => F a
  | .mkl, a => F a

/-- The backward sums of a library, over the sums `B` without any factor: `ifft2` of NumPy divides by
the number of pixels, the call of a pyfftw object of direction `FFTW_BACKWARD` does so too
(`normalise_idft` is on by default), and the backward factor given to Intel's library is
`1.0 / np.prod(a.shape)` (prop_fftw.py 55, 70-72; prop_ffti.py 109-114). -/
noncomputable def backward (B : (A → ℂ) → A → ℂ) (size : ℂ) : Lib → (A → ℂ) → A → ℂ
  | .numpy, a => fun p => B a p / size
  | .fftw, a => fun p => B a p / size
  | .mkl, a => fun p => (1 / size) * B a p

/-- The forward transform of a propagation: `/ np.size(wfarr)`, then `* ngrid` (prop_ptp.py 68-74,
prop_wts.py 52-57, prop_stw.py 55-60). -/
noncomputable def toFreq (F : (A → ℂ) → A → ℂ) (size ngrid : ℂ) (l : Lib) (a : A → ℂ) : A → ℂ :=
  fun p => forward F l a p / size * ngrid

/-- The backward transform of a propagation: `* np.size(wfarr)`, then `/ ngrid` (prop_ptp.py 84-90,
prop_wts.py 59-64, prop_stw.py 62-67). -/
noncomputable def fromFreq (B : (A → ℂ) → A → ℂ) (size ngrid : ℂ) (l : Lib) (a : A → ℂ) : A → ℂ :=
  fun p => backward B size l a p * size / ngrid

end sums

end Verif.FftLib
