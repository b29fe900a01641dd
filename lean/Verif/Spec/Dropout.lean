import Verif.Model.Dropout
import Verif.Spec.MulElem
/-! Specifications for the dropout augmenters. -/
namespace Imgaug.Dropout
open Imgaug

/-- The sample of channel `j` of image `i`, if the samples of all channels of all images are in one list, image after image. -/
def sampleAt (ps : List ℚ) (chans : List Nat) (i j : Nat) : ℚ := ps.getD ((chans.take i).sum + j) 1

/-- `D` is a possible choice of channels to drop in image `i` with `c` channels of which `keep` are to be kept: channels with a sample below
one half, each at most once, and as many of them as there are or as are allowed. -/
def Drops (ps : List ℚ) (chans : List Nat) (keep i c : Nat) (D : List Nat) : Prop :=
  D.Nodup ∧ (∀ j ∈ D, j < c ∧ sampleAt ps chans i j < 1 / 2) ∧
    D.length = min ((List.range c).countP (fun j => decide (sampleAt ps chans i j < 1 / 2))) (c - keep)

/-- The image with the channels in `D` set to zero. -/
def Zeroed (D : List Nat) (a r : Img) : Prop :=
  r.c = a.c ∧ r.px.length = a.px.length ∧ ∀ (n : Nat) (p q : List ℚ), a.px[n]? = some p → r.px[n]? = some q →
    q.length = p.length ∧ ∀ (j : Nat) (v : ℚ), p[j]? = some v → q[j]? = some (if j ∈ D then 0 else v)

/-- The annotations of a row are those of the input, or are all dropped: maps are filled with zeros, lists are empty. -/
def RowKept {α : Type} (b r : Batch α) (i : Nat) : Prop :=
  (∀ l l', b.heatmaps = some l → r.heatmaps = some l' → l'[i]? = l[i]?) ∧
  (∀ l l', b.segmaps = some l → r.segmaps = some l' → l'[i]? = l[i]?) ∧
  (∀ (n : Nat) (l l' : List (List α)), b.coords[n]? = some (some l) → r.coords[n]? = some (some l') → l'[i]? = l[i]?)

def RowDropped {α : Type} (b r : Batch α) (i : Nat) : Prop :=
  (∀ l l', b.heatmaps = some l → r.heatmaps = some l' → l'[i]? = l[i]?.map (List.map (fun _ => 0))) ∧
  (∀ l l', b.segmaps = some l → r.segmaps = some l' → l'[i]? = l[i]?.map (List.map (fun _ => 0))) ∧
  (∀ (n : Nat) (l l' : List (List α)), b.coords[n]? = some (some l) → r.coords[n]? = some (some l') → l'[i]? = l[i]?.map (fun _ => []))

/-- The result has the columns that the input has, with as many rows. -/
def SameColumns {α : Type} (b r : Batch α) : Prop :=
  (r.images.map List.length = b.images.map List.length) ∧ (r.heatmaps.map List.length = b.heatmaps.map List.length) ∧
  (r.segmaps.map List.length = b.segmaps.map List.length) ∧ (r.coords.map (Option.map List.length) = b.coords.map (Option.map List.length))

end Imgaug.Dropout
