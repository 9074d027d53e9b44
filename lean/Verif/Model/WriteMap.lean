import Verif.Model.ErrorMap

/-!
# Model of falco/proper/prop_writemap.py

The FITS file is its data array and its header; of the header the two cards that prop_readmap reads (`Header`) and the type of the map.
-/

namespace Verif.WriteMap
open Verif Verif.Proper Verif.ErrorMap

/-- The keyword arguments of prop_writemap. -/
structure Args where
  AMPLITUDE : Bool := false
  MIRROR : Bool := false
  RADIUS_PIX : Option ℝ := none
  SAMPLING : Option ℝ := none

/-- A file with a map. -/
structure MapFile where
  data : Cubic.Img
  header : Header
  maptype : String
  xcPix : ℕ
  ycPix : ℕ

/-- prop_writemap.py:57-62 -/
def mapType (a : Args) : String := if a.AMPLITUDE then "amplitude" else if a.MIRROR then "mirror" else "wavefront"

/-- falco/proper/prop_writemap.py:51-81 -/
noncomputable def writemap (dmap : Cubic.Img) (a : Args) : Except PyErr MapFile :=
  if a.RADIUS_PIX.isNone ∧ a.SAMPLING.isNone then .error .valueError
  else .ok ⟨dmap, match a.RADIUS_PIX with
    | some r => ⟨some r, none⟩
    | none => ⟨none, a.SAMPLING⟩, mapType a, dmap.rows / 2, dmap.cols / 2⟩

end Verif.WriteMap
