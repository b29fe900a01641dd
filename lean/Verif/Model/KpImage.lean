import Verif.Model.Coords
import Verif.Model.Num
/-! Model of the keypoint image and distance map conversions of `imgaug/augmentables/kps.py` 1056-1338.

One channel of an image is a function `(y, x) ↦ value` on `0 ≤ y < h`, `0 ≤ x < w`. -/
namespace Imgaug

/-- `x_int`, `y_int`, kps.py 109-130. -/
def Pt.xInt (p : Pt) : Int := npRound p.x
def Pt.yInt (p : Pt) : Int := npRound p.y

/-- The channel drawn for one keypoint, kps.py 1086-1100. `sizeh` is computed in line 1085. Image dimensions are at least
1 (for an empty image `np.clip(., 0, -1)` would be needed; there are no pixels then). -/
def drawKeypoint (s : Shape) (sizeh : Nat) (p : Pt) (y x : Nat) : Nat :=
  let x1 := clipI (p.xInt - sizeh) 0 (s.w - 1)
  let x2 := clipI (p.xInt + sizeh + 1) 0 s.w
  let y1 := clipI (p.yInt - sizeh) 0 (s.h - 1)
  let y2 := clipI (p.yInt + sizeh + 1) 0 s.h
  let base := if x1 < x2 ∧ y1 < y2 ∧ y1 ≤ y ∧ (y : Int) < y2 ∧ x1 ≤ x ∧ (x : Int) < x2 then 128 else 0
  if 0 ≤ p.yInt ∧ p.yInt < s.h ∧ 0 ≤ p.xInt ∧ p.xInt < s.w ∧ p.yInt = y ∧ p.xInt = x then 255 else base

/-- `to_keypoint_image`, kps.py 1056-1101. `none` is the assertion that `size` is odd. -/
def toKeypointImage (k : KPsOnImage) (size : Int) : Option (List (Nat → Nat → Nat)) :=
  if size % 2 ≠ 0 then some (k.kps.map (drawKeypoint k.shape ((size - 1) / 2).toNat)) else none

/-- `np.argmax` of a flat array: the first index of the largest value. `none` is the `ValueError` for empty arrays. -/
def argmaxFirst (l : List Nat) : Option Nat := l.max?.map (fun m => l.findIdx (· == m))

/-- `image[..., i]` as flat array. -/
def flatten (h w : Nat) (img : Nat → Nat → Nat) : List Nat := (List.range (h * w)).map (fun i => img (i / w) (i % w))

/-- One round of the loop of `from_keypoint_image`, kps.py 1168-1183. The inner `Option` is `found`. -/
def fromChannel (h w : Nat) (threshold : Nat) (img : Nat → Nat → Nat) : Option (Option Pt) :=
  (argmaxFirst (flatten h w img)).map (fun i =>
    if img (i / w) (i % w) ≥ threshold then some ⟨((i % w : Nat) : ℚ) + 1 / 2, ((i / w : Nat) : ℚ) + 1 / 2⟩ else none)

/-- `from_keypoint_image`, kps.py 1104-1188; `notFound = none` drops keypoints that are not found. -/
def fromKeypointImage (h w : Nat) (channels : List (Nat → Nat → Nat)) (threshold : Nat) (notFound : Option Pt) :
    Option KPsOnImage :=
  (channels.mapM (fromChannel h w threshold)).map (fun found =>
    ⟨found.flatMap (fun f => (f.orElse (fun _ => notFound)).toList), ⟨h, w⟩⟩)

/-- The distance map of one keypoint before `np.sqrt`, kps.py 1226-1228 (`sqrt` does not change which entry is smallest). -/
def distanceSq (p : Pt) (y x : Nat) : ℚ := ((x : ℚ) - p.x) ^ 2 + ((y : ℚ) - p.y) ^ 2

/-- `np.argmin` of a flat array: the first index of the smallest value. -/
def argminFirst (l : List ℚ) : Option Nat := l.min?.map (fun m => l.findIdx (· == m))

/-- `to_distance_maps` followed by one round of the loop of `from_distance_maps` (not inverted), kps.py 1218-1230 and
1309-1326. `thresholdSq` is the squared threshold. -/
def fromDistanceMap (h w : Nat) (thresholdSq : Option ℚ) (p : Pt) : Option (Option Pt) :=
  (argminFirst ((List.range (h * w)).map (fun i => distanceSq p (i / w) (i % w)))).map (fun i =>
    let found : Bool := match thresholdSq with
      | some t => decide (distanceSq p (i / w) (i % w) < t)
      | none => true
    if found then some ⟨((i % w : Nat) : ℚ), ((i / w : Nat) : ℚ)⟩ else none)

end Imgaug
