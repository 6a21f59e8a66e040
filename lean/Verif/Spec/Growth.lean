import Verif.Spec.Cluster
import Mathlib.Data.Finset.Image
import Mathlib.Data.Finset.Card

/-!
# Specification: names, sizes and contacts of the clusters of a labelled image

Independent of the model. `label p` is the label of the pixel with row-major index `p`, zero for background.
-/

namespace Verif.Spec

/-- The labels in use in an image of `n` pixels. -/
def names (n : Nat) (label : Nat → Int) : Finset Int := ((Finset.range n).image label).erase 0

/-- The number of pixels with the label `l`. -/
def clusterSize (n : Nat) (label : Nat → Int) (l : Int) : Nat := ((Finset.range n).filter fun p => label p = l).card

open Classical in
/-- The labels of the neighbours of the pixel `p`, without background. -/
noncomputable def contacts (n : Nat) (label : Nat → Int) (adj : Nat → Nat → Prop) (p : Nat) : Finset Int :=
  (((Finset.range n).filter fun q => adj p q).image label).erase 0

end Verif.Spec
