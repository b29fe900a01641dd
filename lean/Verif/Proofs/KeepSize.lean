import Verif.Model.KeepSize
import Verif.Props.Resize
import Verif.Proofs.Dtypes
/-! Helper lemmas for `KeepSizeByResize`. -/
namespace Imgaug.KeepSize
open Imgaug Imgaug.Resize

theorem loop_get {α β γ : Type} {f : α → β → γ → Option α} {a : List α} {b : List β} {c : List γ} {r : List α}
    (h : loop f a b c = some r) {i : Nat} {x : α} {y : β} {z : γ} (hx : a[i]? = some x) (hy : b[i]? = some y) (hz : c[i]? = some z) :
    ∃ w, r[i]? = some w ∧ f x y z = some w := by
  have hg : (a.zip (b.zip c))[i]? = some (x, (y, z)) := by
    rw [List.getElem?_zip_eq_some]
    exact ⟨hx, by rw [List.getElem?_zip_eq_some]; exact ⟨hy, hz⟩⟩
  exact Dtypes.mapM_nth _ _ _ h i _ hg

theorem loop_len {α β γ : Type} {f : α → β → γ → Option α} {a : List α} {b : List β} {c : List γ} {r : List α}
    (h : loop f a b c = some r) (hb : b.length = a.length) (hc : c.length = a.length) : r.length = a.length := by
  rw [Dtypes.mapM_len _ _ _ h]
  simp [hb, hc]

/-- The columns of the result. -/
theorem augment_columns {cv : Cv} {child : Batch → Batch} {imgs : List ImgIp} {heat seg : Option (List MapIp)} {b r : Batch}
    (h : augment cv child imgs heat seg b = some r) :
    column (fun (s : Bool × List Im) v => keepImages cv v.2 (s.2.map (fun a => (a.h, a.w))) s.1 imgs) b.images (child b).images = some r.images ∧
    column (fun (s : List MapOn) v => keepMaps cv v (s.map (·.shape)) (s.map (fun m => (m.arr.h, m.arr.w))) (mapSamples imgs heat))
      b.heatmaps (child b).heatmaps = some r.heatmaps ∧
    column (fun (s : List MapOn) v => keepMaps cv v (s.map (·.shape)) (s.map (fun m => (m.arr.h, m.arr.w))) (mapSamples imgs seg))
      b.segmaps (child b).segmaps = some r.segmaps ∧
    column (fun (s : List KPsOnImage) v => loop keepKps v imgs (s.map (·.shape))) b.keypoints (child b).keypoints = some r.keypoints := by
  unfold augment at h
  simp only [Option.bind_eq_some_iff] at h
  obtain ⟨i, h1, m, h2, s, h3, k, h4, h5⟩ := h
  rw [Option.some.injEq] at h5
  subst h5
  exact ⟨h1, h2, h3, h4⟩

theorem column_some {α β : Type} {f : α → β → Option β} {s : α} {v : β} {r : Option β} (h : column f (some s) (some v) = some r) :
    ∃ w, r = some w ∧ f s v = some w := by
  simp only [column, Option.map_eq_some_iff] at h
  obtain ⟨w, a, b⟩ := h
  exact ⟨w, b.symm, a⟩

theorem on_shape (k k' : KPsOnImage) (s : Shape) (h : k.on s = some k') : k'.shape = s := by
  unfold KPsOnImage.on at h
  split_ifs at h with hs
  · cases h; exact hs.symm
  · rw [Option.map_eq_some_iff] at h
    obtain ⟨l, _, rfl⟩ := h
    rfl

/-- Each point keeps its relative position. -/
theorem on_points (k k' : KPsOnImage) (s : Shape) (h : k.on s = some k') :
    k'.kps.length = k.kps.length ∧ ∀ (j : Nat) (p : Pt), k.kps[j]? = some p → ∃ q, k'.kps[j]? = some q ∧
      q.x * k.shape.w = p.x * s.w ∧ q.y * k.shape.h = p.y * s.h := by
  unfold KPsOnImage.on at h
  split_ifs at h with hs
  · cases h
    exact ⟨rfl, fun j p hp => ⟨p, hp, by rw [hs], by rw [hs]⟩⟩
  · rw [Option.map_eq_some_iff] at h
    obtain ⟨l, hm, rfl⟩ := h
    refine ⟨Dtypes.mapM_len _ _ _ hm, fun j p hp => ?_⟩
    obtain ⟨q, hq, hf⟩ := Dtypes.mapM_nth _ _ _ hm j p hp
    refine ⟨q, hq, ?_⟩
    unfold projectPt at hf
    rw [if_neg (Ne.symm hs)] at hf
    split_ifs at hf with hp
    cases hf
    obtain ⟨h1, h2, _, _⟩ := hp
    have e1 : (k.shape.w : ℚ) ≠ 0 := by exact_mod_cast (by omega : k.shape.w ≠ 0)
    have e2 : (k.shape.h : ℚ) ≠ 0 := by exact_mod_cast (by omega : k.shape.h ≠ 0)
    constructor
    · show p.x / k.shape.w * s.w * k.shape.w = _
      field_simp
    · show p.y / k.shape.h * s.h * k.shape.h = _
      field_simp

theorem resized_int (cv : Cv) (ip : Option Inter) (m n : Nat) (im r : Im) (hr : single cv ip (.tuple [.int m, .int n]) im = some r) :
    r.dt = im.dt ∧ r.c = im.c ∧ r.h = m ∧ r.w = n := by
  obtain ⟨h1, h2, h3, h4⟩ := resized_shape cv ip _ _ im r hr
  simp only [AsksFor] at h3 h4
  exact ⟨h1, h2, by omega, by omega⟩

end Imgaug.KeepSize
