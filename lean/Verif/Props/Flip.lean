import Verif.Proofs.Flip
/-! C43: flips. -/
namespace Imgaug.Flip
open Imgaug
variable {α γ σ : Type}

/-- C43: `Fliplr` mirrors, in all columns of a batch, exactly the rows whose sample is at least 0.5, and leaves the other rows
unchanged. Images, heatmaps and segmentation maps are mirrored pixel by pixel, points at the centre line of the image; boxes
stay well formed, keep their size and label and contain exactly the mirrored points. -/
theorem fliplr_batch (samples : List ℚ) (b : FBatch α γ σ) :
    RowWise samples MirroredLr b.images (augmentLr samples b).images ∧
    RowWise samples MirroredLr b.heatmaps (augmentLr samples b).heatmaps ∧
    RowWise samples MirroredLr b.segmaps (augmentLr samples b).segmaps ∧
    RowWise samples (KpsMoved mirrorX) b.keypoints (augmentLr samples b).keypoints ∧
    RowWise samples (BBsMoved mirrorX) b.boxes (augmentLr samples b).boxes ∧
    RowWise samples (PathsMoved mirrorX) b.polygons (augmentLr samples b).polygons ∧
    RowWise samples (PathsMoved mirrorX) b.lines (augmentLr samples b).lines := by
  have hk : ∀ k, KpsMoved mirrorX k (lrKps k) := fun k => ⟨rfl, forall2_map _ _ _ (fun _ => rfl)⟩
  have hb : ∀ k, BBsMoved mirrorX k (lrBBs k) := fun k => ⟨rfl, forall2_map _ _ _ (fun _ => lrBB_moved _ _)⟩
  have hp : ∀ k, PathsMoved mirrorX k (lrPaths k) :=
    fun k => ⟨rfl, forall2_map _ _ _ (fun l => forall2_map _ _ _ (fun _ => rfl))⟩
  refine ⟨?_, ?_, ?_, ?_, ?_, ?_, ?_⟩
  · exact rowwise lrRow FBatch.images fliplr _ fliplr_mirrored (fun _ _ => rfl) samples b
  · exact rowwise lrRow FBatch.heatmaps fliplr _ fliplr_mirrored (fun _ _ => rfl) samples b
  · exact rowwise lrRow FBatch.segmaps fliplr _ fliplr_mirrored (fun _ _ => rfl) samples b
  · exact rowwise lrRow FBatch.keypoints lrKps _ hk (fun _ _ => rfl) samples b
  · exact rowwise lrRow FBatch.boxes lrBBs _ hb (fun _ _ => rfl) samples b
  · exact rowwise lrRow FBatch.polygons lrPaths _ hp (fun _ _ => rfl) samples b
  · exact rowwise lrRow FBatch.lines lrPaths _ hp (fun _ _ => rfl) samples b

/-- C43: the same for `Flipud`. -/
theorem flipud_batch (samples : List ℚ) (b : FBatch α γ σ) :
    RowWise samples MirroredUd b.images (augmentUd samples b).images ∧
    RowWise samples MirroredUd b.heatmaps (augmentUd samples b).heatmaps ∧
    RowWise samples MirroredUd b.segmaps (augmentUd samples b).segmaps ∧
    RowWise samples (KpsMoved mirrorY) b.keypoints (augmentUd samples b).keypoints ∧
    RowWise samples (BBsMoved mirrorY) b.boxes (augmentUd samples b).boxes ∧
    RowWise samples (PathsMoved mirrorY) b.polygons (augmentUd samples b).polygons ∧
    RowWise samples (PathsMoved mirrorY) b.lines (augmentUd samples b).lines := by
  have hk : ∀ k, KpsMoved mirrorY k (udKps k) := fun k => ⟨rfl, forall2_map _ _ _ (fun _ => rfl)⟩
  have hb : ∀ k, BBsMoved mirrorY k (udBBs k) := fun k => ⟨rfl, forall2_map _ _ _ (fun _ => udBB_moved _ _)⟩
  have hp : ∀ k, PathsMoved mirrorY k (udPaths k) :=
    fun k => ⟨rfl, forall2_map _ _ _ (fun l => forall2_map _ _ _ (fun _ => rfl))⟩
  refine ⟨?_, ?_, ?_, ?_, ?_, ?_, ?_⟩
  · exact rowwise udRow FBatch.images flipud _ flipud_mirrored (fun _ _ => rfl) samples b
  · exact rowwise udRow FBatch.heatmaps flipud _ flipud_mirrored (fun _ _ => rfl) samples b
  · exact rowwise udRow FBatch.segmaps flipud _ flipud_mirrored (fun _ _ => rfl) samples b
  · exact rowwise udRow FBatch.keypoints udKps _ hk (fun _ _ => rfl) samples b
  · exact rowwise udRow FBatch.boxes udBBs _ hb (fun _ _ => rfl) samples b
  · exact rowwise udRow FBatch.polygons udPaths _ hp (fun _ _ => rfl) samples b
  · exact rowwise udRow FBatch.lines udPaths _ hp (fun _ _ => rfl) samples b

/-- A batch of two images of size 2x3 with a keypoint and a box on each. -/
def exBatch : FBatch Nat Unit Unit where
  images := some [⟨2, 3, fun y x => 10 * y + x⟩, ⟨2, 3, fun y x => 10 * y + x⟩]
  heatmaps := none
  segmaps := none
  keypoints := some [⟨[⟨1 / 2, 1⟩], ⟨2, 3⟩⟩, ⟨[⟨1 / 2, 1⟩], ⟨2, 3⟩⟩]
  boxes := some [⟨[⟨0, 0, 1, 2, none⟩], ⟨2, 3⟩⟩, ⟨[⟨0, 0, 1, 2, none⟩], ⟨2, 3⟩⟩]
  polygons := none
  lines := none

example : (augmentLr [0, 1] exBatch).images.map (fun l => l.map Img.toList) =
      some [[[0, 1, 2], [10, 11, 12]], [[2, 1, 0], [12, 11, 10]]] ∧
    (augmentLr [0, 1] exBatch).keypoints = some [⟨[⟨1 / 2, 1⟩], ⟨2, 3⟩⟩, ⟨[⟨5 / 2, 1⟩], ⟨2, 3⟩⟩] ∧
    (augmentLr [0, 1] exBatch).boxes = some [⟨[⟨0, 0, 1, 2, none⟩], ⟨2, 3⟩⟩, ⟨[⟨2, 0, 3, 2, none⟩], ⟨2, 3⟩⟩] := by
  decide +kernel

/-- C43: flipping twice gives the original, for images and for all annotations. -/
theorem flip_twice (a : Img α) (k : KPsOnImage) (b : BBsOnImage) (p : PathsOnImage) :
    (fliplr (fliplr a)).Same a ∧ (flipud (flipud a)).Same a ∧ lrKps (lrKps k) = k ∧ udKps (udKps k) = k ∧
    lrBBs (lrBBs b) = b ∧ udBBs (udBBs b) = b ∧ lrPaths (lrPaths p) = p ∧ udPaths (udPaths p) = p := by
  have hl : ∀ s q, lrPt s (lrPt s q) = q := by intro s q; simp [lrPt]
  have hu : ∀ s q, udPt s (udPt s q) = q := by intro s q; simp [udPt]
  have hlb : ∀ s q, lrBB s (lrBB s q) = q := by intro s q; simp [lrBB]
  have hub : ∀ s q, udBB s (udBB s q) = q := by intro s q; simp [udBB]
  refine ⟨⟨rfl, rfl, ?_⟩, ⟨rfl, rfl, ?_⟩, ?_, ?_, ?_, ?_, ?_, ?_⟩
  · intro y x _ hx
    simp only [fliplr]
    congr 1
    omega
  · intro y x hy _
    simp only [flipud]
    congr 1
    omega
  · simp [lrKps, List.map_map, Function.comp_def, hl]
  · simp [udKps, List.map_map, Function.comp_def, hu]
  · simp [lrBBs, List.map_map, Function.comp_def, hlb]
  · simp [udBBs, List.map_map, Function.comp_def, hub]
  · simp [lrPaths, List.map_map, Function.comp_def, hl]
  · simp [udPaths, List.map_map, Function.comp_def, hu]

/-- C43: horizontal and vertical flips commute. -/
theorem flips_commute (a : Img α) (k : KPsOnImage) (b : BBsOnImage) (p : PathsOnImage) :
    fliplr (flipud a) = flipud (fliplr a) ∧ lrKps (udKps k) = udKps (lrKps k) ∧ lrBBs (udBBs b) = udBBs (lrBBs b) ∧
    lrPaths (udPaths p) = udPaths (lrPaths p) := by
  refine ⟨rfl, ?_, ?_, ?_⟩
  · simp [lrKps, udKps, List.map_map, Function.comp_def, lrPt, udPt]
  · simp [lrBBs, udBBs, List.map_map, Function.comp_def, lrBB, udBB]
  · simp [lrPaths, udPaths, List.map_map, Function.comp_def, lrPt, udPt]

/-- C43: a point in a pixel of the image is, after the horizontal flip, in the pixel of the flipped image with the same
content. -/
theorem fliplr_aligned (a : Img α) (p : Pt) (y x : Nat) (hy : y < a.h) (hx : x < a.w) (hp : InPixel p y x) :
    ∃ y' x', y' < (fliplr a).h ∧ x' < (fliplr a).w ∧ (∀ b : Img α, b.h = a.h → b.w = a.w → (fliplr b).px y' x' = b.px y x) ∧
      InPixel (mirrorX ⟨a.h, a.w⟩ p) y' x' := by
  refine ⟨y, a.w - 1 - x, hy, by simp [fliplr]; omega, ?_, ?_⟩
  · intro b hbh hbw
    simp only [fliplr, hbw]
    congr 1
    omega
  · obtain ⟨h1, h2, h3, h4⟩ := hp
    have e : ((a.w - 1 - x : Nat) : ℚ) = (a.w : ℚ) - 1 - x := by
      rw [Nat.cast_sub (by omega), Nat.cast_sub (by omega)]; simp
    refine ⟨?_, ?_, h3, h4⟩
    · simp only [mirrorX, e]; linarith
    · simp only [mirrorX, e]; linarith

example : InPixel ⟨1 / 2, 1⟩ 1 0 ∧ InPixel (mirrorX ⟨2, 3⟩ ⟨1 / 2, 1⟩) 1 2 := by
  simp only [InPixel, mirrorX]; norm_num

/-- C43: the same for the vertical flip. -/
theorem flipud_aligned (a : Img α) (p : Pt) (y x : Nat) (hy : y < a.h) (hx : x < a.w) (hp : InPixel p y x) :
    ∃ y' x', y' < (flipud a).h ∧ x' < (flipud a).w ∧ (∀ b : Img α, b.h = a.h → b.w = a.w → (flipud b).px y' x' = b.px y x) ∧
      InPixel (mirrorY ⟨a.h, a.w⟩ p) y' x' := by
  refine ⟨a.h - 1 - y, x, by simp [flipud]; omega, hx, ?_, ?_⟩
  · intro b hbh hbw
    simp only [flipud, hbh]
    congr 1
    omega
  · obtain ⟨h1, h2, h3, h4⟩ := hp
    have e : ((a.h - 1 - y : Nat) : ℚ) = (a.h : ℚ) - 1 - y := by
      rw [Nat.cast_sub (by omega), Nat.cast_sub (by omega)]; simp
    refine ⟨h1, h2, ?_, ?_⟩
    · simp only [mirrorY, e]; linarith
    · simp only [mirrorY, e]; linarith

example : ∃ y' x', y' < 2 ∧ x' < 3 ∧ (∀ b : Img Nat, b.h = 2 → b.w = 3 → (flipud b).px y' x' = b.px 1 0) ∧
    InPixel (mirrorY ⟨2, 3⟩ ⟨1 / 2, 1⟩) y' x' :=
  flipud_aligned (⟨2, 3, fun y x => 10 * y + x⟩ : Img Nat) ⟨1 / 2, 1⟩ 1 0 (by decide) (by decide)
    (by simp only [InPixel]; norm_num)

end Imgaug.Flip
