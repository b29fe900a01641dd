import Verif.Proofs.Normalize2
/-! C23: what the standard form contains, and what the user gets back after augmentation. -/
namespace Imgaug.Props
open Imgaug
variable {ε ω : Type}

/-- C23: for every documented input form that describes the objects `ess` (one list per image) the standard form has, for each
image, exactly these objects in the same order, on the shape of that image. -/
theorem normalize_meaning (F : Fam ε ω) (hsz : 0 < F.size) (v : PyVal ε ω) (ess : List (List ε)) (hm : Means F v ess)
    (shapes : List Shape) (hlen : shapes.length = ess.length) :
    F.normalize v (some shapes) = some (some ((ess.zip shapes).map (fun x => F.coll x.1 x.2))) := by
  rw [normalize_standard F hsz v ess hm]
  simp [standard, shapesOf, hlen]

example : bbFam.normalize (.list [.list [.tuple [.num 5, .num 2, .num 1, .num 4]], .list []])
      (some [⟨10, 20⟩, ⟨30, 40⟩]) =
    some (some [⟨[⟨1, 2, 5, 4, none⟩], ⟨10, 20⟩⟩, ⟨[], ⟨30, 40⟩⟩]) :=
  normalize_meaning bbFam (by decide) _ [[⟨1, 2, 5, 4, none⟩], []]
    (.coordsLists [[[5, 2, 1, 4]], []] _ ⟨_, List.mem_cons_self, by simp⟩ (by simp [bbFam])
      (.cons (.cons (by decide +kernel) .nil) (.cons .nil .nil))) _ (by simp)

/-- C23: with a wrong number of shapes, or without shapes, the same inputs are rejected. -/
theorem normalize_wrong_shapes (F : Fam ε ω) (hsz : 0 < F.size) (v : PyVal ε ω) (ess : List (List ε)) (hm : Means F v ess)
    (shapes : Option (List Shape)) (hlen : ∀ l, shapes = some l → l.length ≠ ess.length) : F.normalize v shapes = none := by
  rw [normalize_standard F hsz v ess hm]
  match shapes with
  | none => simp [standard, shapesOf]
  | some l => simp [standard, shapesOf, hlen l rfl]

example : kpFam.normalize (.list [.ent ⟨1, 2⟩]) (some [⟨10, 20⟩, ⟨30, 40⟩]) = none :=
  normalize_wrong_shapes kpFam (by decide) _ [[⟨1, 2⟩]] (.objects (F := kpFam) [(⟨1, 2⟩ : Pt)] (by simp)) _ (by simp)

/-- C23: the user gets back a value of the form of the input that describes the augmented objects. This holds for every
augmentation result with the number of images (and, for single objects, the number of objects) of the input. -/
theorem invert_meaning (F : Fam ε ω) (hsz : 0 < F.size) (v v' : PyVal ε ω) (os : List ω)
    (hr : Rewritten F v (os.map F.ents) v') : F.invert (some os) v = some v' := invert_rewritten F hsz v v' os hr

example : kpFam.invert (some [⟨[⟨7, 8⟩, ⟨5, 6⟩], ⟨10, 20⟩⟩]) (.list [.tuple [.num 1, .num 2], .tuple [.num 3, .num 4]]) =
    some (.list [.tuple [.num 7, .num 8], .tuple [.num 5, .num 6]]) :=
  invert_meaning kpFam (by decide) _ _ _ (.coordsList (F := kpFam) [[1, 2], [3, 4]] [(⟨7, 8⟩ : Pt), ⟨5, 6⟩] (by simp) (by simp [kpFam]))

/-- C23: the numbers `(x, y)` mean the keypoint with these coordinates, and a keypoint is given back as these numbers. -/
theorem keypoint_numbers (x y : ℚ) : kpFam.make [x, y] = some ⟨x, y⟩ ∧ kpFam.nums ⟨x, y⟩ = [x, y] := ⟨rfl, rfl⟩

/-- C23: the numbers `(x1, y1, x2, y2)` with ordered corners mean the bounding box with these corners, and a bounding box is
given back as these numbers. -/
theorem bounding_box_numbers (x1 y1 x2 y2 : ℚ) (hx : x1 ≤ x2) (hy : y1 ≤ y2) :
    bbFam.make [x1, y1, x2, y2] = some ⟨x1, y1, x2, y2, none⟩ ∧ bbFam.nums ⟨x1, y1, x2, y2, none⟩ = [x1, y1, x2, y2] := by
  refine ⟨?_, rfl⟩
  simp only [bbFam, BB.init]
  grind

example : bbFam.make [1, 2, 3, 4] = some ⟨1, 2, 3, 4, none⟩ := (bounding_box_numbers 1 2 3 4 (by norm_num) (by norm_num)).1

/-- C23: numbers whose corners are not ordered mean the box with the corners swapped where needed. -/
theorem bounding_box_numbers_swapped (x1 y1 x2 y2 : ℚ) :
    bbFam.make [x1, y1, x2, y2] = some ⟨min x1 x2, min y1 y2, max x1 x2, max y1 y2, none⟩ := by
  simp only [bbFam, BB.init]
  grind

end Imgaug.Props
