import Verif.Spec.BatchCopy
import Mathlib.Tactic.Linarith
/-! C137: conversions and copies of batches. -/
namespace Imgaug.BatchCopy.Props
open Imgaug.BatchCopy Imgaug.BatchCopy.Spec

variable {α : Type}

/-- The second memory has all objects of the first one. -/
def Ext (h k : Heap α) : Prop := h.next ≤ k.next ∧ ∀ a, a < h.next → k.mem a = h.mem a

theorem Ext.refl (h : Heap α) : Ext h h := ⟨le_refl _, fun _ _ => rfl⟩

theorem Ext.trans {h k l : Heap α} (a : Ext h k) (b : Ext k l) : Ext h l :=
  ⟨le_trans a.1 b.1, fun x hx => (b.2 x (lt_of_lt_of_le hx a.1)).trans (a.2 x hx)⟩

theorem alloc_ext (h : Heap α) (o : Obj α) : Ext h (h.alloc o).2 ∧ (h.alloc o).2.mem (h.alloc o).1 = o ∧ (h.alloc o).1 = h.next ∧
    (h.alloc o).2.next = h.next + 1 := by
  refine ⟨⟨Nat.le_succ _, fun a ha => ?_⟩, ?_, rfl, rfl⟩
  · simp only [Heap.alloc]; rw [if_neg (by omega)]
  · simp [Heap.alloc]

theorem parts_ext {h k : Heap α} (e : Ext h k) (o : Option Nat) (x : Known h o) : parts k o = parts h o := by
  cases o with
  | none => rfl
  | some a =>
    have ha : a < h.next := x a (by unfold parts; dsimp only; split <;> simp)
    simp only [parts, e.2 a ha]

theorem seen_ext {h k : Heap α} (e : Ext h k) (o : Option Nat) (x : Known h o) : seen k o = seen h o := by
  cases o with
  | none => rfl
  | some a =>
    have ha : a < h.next := x a (by unfold parts; dsimp only; split <;> simp)
    simp only [seen, e.2 a ha]
    cases hm : h.mem a with
    | leaf v => rfl
    | list l =>
      simp only [Seen.many.injEq]
      refine List.map_congr_left (fun i hi => e.2 i (x i ?_))
      simp only [parts, hm, List.mem_cons]; exact Or.inr hi

theorem exists_ext {h k : Heap α} (e : Ext h k) (o : Option Nat) (x : Known h o) : Known k o := by
  intro a ha
  rw [parts_ext e o x] at ha
  exact lt_of_lt_of_le (x a ha) e.1

theorem copyItems_spec (l : List Nat) (h : Heap α) (hl : ∀ a ∈ l, a < h.next) :
    Ext h (copyItems l h).2 ∧ (copyItems l h).1.map (copyItems l h).2.mem = l.map h.mem ∧
    ∀ a ∈ (copyItems l h).1, h.next ≤ a ∧ a < (copyItems l h).2.next := by
  induction l generalizing h with
  | nil => exact ⟨Ext.refl h, rfl, fun a ha => absurd ha (by simp [copyItems])⟩
  | cons b l ih =>
    obtain ⟨e, hm, ha, hn⟩ := alloc_ext h (h.mem b)
    obtain ⟨e2, h2, h3⟩ := ih (h.alloc (h.mem b)).2 (fun a hal => by have := hl a (List.mem_cons_of_mem _ hal); omega)
    simp only [copyItems]
    refine ⟨e.trans e2, ?_, ?_⟩
    · rw [List.map_cons, List.map_cons, h2, e2.2 _ (by omega), hm]
      congr 1
      exact List.map_congr_left (fun a hal => e.2 a (hl a (List.mem_cons_of_mem _ hal)))
    · intro a hal
      rcases List.mem_cons.1 hal with rfl | hal
      · have := e2.1; omega
      · have := h3 a hal; omega

theorem copyOpt_spec (o : Option Nat) (h : Heap α) (x : Known h o) :
    Ext h (copyOpt o h).2 ∧ seen (copyOpt o h).2 (copyOpt o h).1 = seen h o ∧
    ∀ a ∈ parts (copyOpt o h).2 (copyOpt o h).1, h.next ≤ a ∧ a < (copyOpt o h).2.next := by
  cases o with
  | none => exact ⟨Ext.refl h, rfl, fun a ha => absurd ha (by simp [copyOpt, parts])⟩
  | some a =>
    simp only [copyOpt, copy]
    cases hm : h.mem a with
    | leaf v =>
      obtain ⟨e, hv, ha, hn⟩ := alloc_ext h (.leaf v)
      refine ⟨e, by simp only [seen, hv, hm], ?_⟩
      intro b hb
      simp only [parts, hv, List.mem_singleton] at hb
      subst hb
      dsimp only
      omega
    | list l =>
      obtain ⟨e1, h1, h2⟩ := copyItems_spec l h (fun b hb => x b (by simp only [parts, hm, List.mem_cons]; exact Or.inr hb))
      obtain ⟨e, hv, ha, hn⟩ := alloc_ext (copyItems l h).2 (.list (copyItems l h).1)
      refine ⟨e1.trans e, ?_, ?_⟩
      · simp only [seen, hv, hm, Seen.many.injEq]
        rw [← h1]
        exact List.map_congr_left (fun b hb => e.2 b (h2 b hb).2)
      · intro b hb
        simp only [parts, hv, List.mem_cons] at hb
        have := e1.1
        dsimp only
        rcases hb with rfl | hb
        · omega
        · have := h2 b hb; omega

/-- A copy of `o` made between `h` and `k`. -/
def Copied (h k : Heap α) (o p : Option Nat) : Prop := seen k p = seen h o ∧ ∀ a ∈ parts k p, h.next ≤ a ∧ a < k.next

theorem copied_step {h k : Heap α} (e : Ext h k) (o : Option Nat) (x : Known h o) :
    Ext h (copyOpt o k).2 ∧ Ext k (copyOpt o k).2 ∧ Copied h (copyOpt o k).2 o (copyOpt o k).1 := by
  obtain ⟨e2, hs, hp⟩ := copyOpt_spec o k (exists_ext e o x)
  exact ⟨e.trans e2, e2, hs.trans (seen_ext e o x), fun a ha => ⟨le_trans e.1 (hp a ha).1, (hp a ha).2⟩⟩

theorem copied_ext {h k l : Heap α} (e : Ext k l) (o p : Option Nat) (c : Copied h k o p) : Copied h l o p := by
  have x : Known k p := fun a ha => (c.2 a ha).2
  refine ⟨(seen_ext e p x).trans c.1, fun a ha => ?_⟩
  rw [parts_ext e p x] at ha
  exact ⟨(c.2 a ha).1, lt_of_lt_of_le (c.2 a ha).2 e.1⟩

theorem toInAug_spec (b : Batch) (h : Heap α) (x : ∀ c ∈ columns, Known h (c b.unaug)) :
    Ext h (toInAug b h).2 ∧ ∀ c ∈ columns, Copied h (toInAug b h).2 (c b.unaug) (c (toInAug b h).1.cols) := by
  obtain ⟨e1, f1, c1⟩ := copied_step (Ext.refl h) b.unaug.images (x _ (by simp [columns]))
  obtain ⟨e2, f2, c2⟩ := copied_step e1 b.unaug.heatmaps (x _ (by simp [columns]))
  obtain ⟨e3, f3, c3⟩ := copied_step e2 b.unaug.segmaps (x _ (by simp [columns]))
  obtain ⟨e4, f4, c4⟩ := copied_step e3 b.unaug.keypoints (x _ (by simp [columns]))
  obtain ⟨e5, f5, c5⟩ := copied_step e4 b.unaug.boxes (x _ (by simp [columns]))
  obtain ⟨e6, f6, c6⟩ := copied_step e5 b.unaug.polygons (x _ (by simp [columns]))
  obtain ⟨e7, f7, c7⟩ := copied_step e6 b.unaug.lines (x _ (by simp [columns]))
  refine ⟨e7, fun c hc => ?_⟩
  simp only [columns, List.mem_cons, List.not_mem_nil, or_false] at hc
  rcases hc with rfl | rfl | rfl | rfl | rfl | rfl | rfl
  · exact copied_ext (f2.trans (f3.trans (f4.trans (f5.trans (f6.trans f7))))) _ _ c1
  · exact copied_ext (f3.trans (f4.trans (f5.trans (f6.trans f7)))) _ _ c2
  · exact copied_ext (f4.trans (f5.trans (f6.trans f7))) _ _ c3
  · exact copied_ext (f5.trans (f6.trans f7)) _ _ c4
  · exact copied_ext (f6.trans f7) _ _ c5
  · exact copied_ext f7 _ _ c6
  · exact c7

/-- A memory with two images in a list, an array and the data of a batch. -/
def demoHeap : Heap Nat := ⟨fun a => if a = 2 then .list [0, 1] else .leaf (10 * a), 5⟩

/-- A batch with the two images, the array as heatmaps, and data. -/
def demoBatch : Batch := ⟨⟨some 2, some 3, none, none, none, none, none⟩, ⟨none, none, none, none, none, none, none⟩, some 4⟩

theorem demo_exists : (∀ c ∈ columns, Known demoHeap (c demoBatch.unaug)) ∧ Known demoHeap demoBatch.data := by
  simp [columns, Known, parts, demoBatch, demoHeap]

/-- C137: the augmenters are given copies of all the columns that were passed: each shows the same, and shares no object with anything that
existed before; nothing that existed before is changed. -/
theorem augmenters_get_copies (b : Batch) (h : Heap α) (x : ∀ c ∈ columns, Known h (c b.unaug)) (c) (hc : c ∈ columns) :
    seen (toInAug b h).2 (c (toInAug b h).1.cols) = seen h (c b.unaug) ∧
    (∀ a ∈ parts (toInAug b h).2 (c (toInAug b h).1.cols), h.next ≤ a) ∧
    ∀ o, Known h o → seen (toInAug b h).2 o = seen h o := by
  obtain ⟨e, hs⟩ := toInAug_spec b h x
  exact ⟨(hs c hc).1, fun a ha => ((hs c hc).2 a ha).1, fun o ho => seen_ext e o ho⟩

example : (toInAug demoBatch demoHeap).1 = ⟨⟨some 7, some 8, none, none, none, none, none⟩, none⟩ := by decide +kernel

/-- C137: whatever the augmenters do in place, the columns that were passed and the data of the batch stay as they were; the results are the columns
that the augmenters left. -/
theorem inputs_kept (f : InAug → Heap α → InAug × Heap α) (hf : InPlace f) (b : Batch) (h : Heap α) (x : ∀ c ∈ columns, Known h (c b.unaug)) :
    (augmentBatch f b h).1.unaug = b.unaug ∧ (augmentBatch f b h).1.data = b.data ∧
    (∀ o, Known h o → seen (augmentBatch f b h).2 o = seen h o) ∧
    ∀ c ∈ columns, c (augmentBatch f b h).1.aug = c (f (toInAug b h).1 (toInAug b h).2).1.cols := by
  obtain ⟨e, hs⟩ := toInAug_spec b h x
  refine ⟨rfl, rfl, fun o ho => ?_, fun c hc => ?_⟩
  · obtain ⟨h1, h2⟩ := hf (toInAug b h).1 (toInAug b h).2
    have e2 : Ext h (augmentBatch f b h).2 := by
      refine ⟨le_trans e.1 h1, fun a ha => ?_⟩
      refine (h2 a (lt_of_lt_of_le ha e.1) (fun c hc hm => ?_)).trans (e.2 a ha)
      have := ((hs c hc).2 a hm).1
      omega
    exact seen_ext e2 o ho
  · simp only [columns, List.mem_cons, List.not_mem_nil, or_false] at hc
    rcases hc with rfl | rfl | rfl | rfl | rfl | rfl | rfl <;> rfl

/-- An augmenter that overwrites its heatmaps in place and drops the images. -/
def demoAug (i : InAug) (h : Heap Nat) : InAug × Heap Nat :=
  ({ i with cols := { i.cols with images := none } }, { h with mem := fun a => if i.cols.heatmaps = some a then .leaf 99 else h.mem a })

theorem demoAug_inPlace : InPlace demoAug := by
  refine fun i h => ⟨le_refl _, fun a _ ha => ?_⟩
  simp only [demoAug]
  rw [if_neg]
  intro hc
  refine ha Cols.heatmaps (by simp [columns]) ?_
  rw [hc]
  unfold parts
  dsimp only; split <;> simp

example : (augmentBatch demoAug demoBatch demoHeap).1 = { demoBatch with aug := ⟨none, some 8, none, none, none, none, none⟩ } ∧
    (augmentBatch demoAug demoBatch demoHeap).2.mem 8 = .leaf 99 ∧ (augmentBatch demoAug demoBatch demoHeap).2.mem 3 = .leaf 30 := by decide +kernel

/-- C137: a batch that was augmented before is augmented again from its inputs: earlier results play no role. -/
theorem augmented_again (f : InAug → Heap α → InAug × Heap α) (b b' : Batch) (h : Heap α) (hu : b.unaug = b'.unaug) :
    (augmentBatch f b h).1.aug = (augmentBatch f b' h).1.aug ∧ (augmentBatch f b h).2 = (augmentBatch f b' h).2 := by
  have : toInAug b h = toInAug b' h := by unfold toInAug; rw [hu]
  unfold augmentBatch fill
  rw [this]
  exact ⟨rfl, rfl⟩

example : ({ demoBatch with aug := ⟨some 1, none, none, none, none, none, none⟩ } : Batch).unaug = demoBatch.unaug := rfl

/-- C137: conversion back to a batch: inputs and data are those of the batch before augmentation, results those of the augmented batch. -/
theorem converted_back (i : InAug) (before : Batch) :
    (toBatch i before).data = before.data ∧
    ∀ c ∈ columns, c (toBatch i before).unaug = c before.unaug ∧ c (toBatch i before).aug = c i.cols := by
  refine ⟨rfl, fun c hc => ?_⟩
  simp only [columns, List.mem_cons, List.not_mem_nil, or_false] at hc
  rcases hc with rfl | rfl | rfl | rfl | rfl | rfl | rfl <;> exact ⟨rfl, rfl⟩

/-- C137: copying a batch within the augmentation: all columns and the data are copied; each copy shows the same and shares no object with anything
that existed before; nothing that existed before is changed. -/
theorem copy_separate (i : InAug) (h : Heap α) (x : ∀ c ∈ columns, Known h (c i.cols)) (xd : Known h i.data) :
    (∀ o, Known h o → seen (deepcopyIn i h).2 o = seen h o) ∧
    (seen (deepcopyIn i h).2 (deepcopyIn i h).1.data = seen h i.data ∧ ∀ a ∈ parts (deepcopyIn i h).2 (deepcopyIn i h).1.data, h.next ≤ a) ∧
    ∀ c ∈ columns, seen (deepcopyIn i h).2 (c (deepcopyIn i h).1.cols) = seen h (c i.cols) ∧
      ∀ a ∈ parts (deepcopyIn i h).2 (c (deepcopyIn i h).1.cols), h.next ≤ a := by
  obtain ⟨e0, _, c0⟩ := copied_step (Ext.refl h) i.data xd
  obtain ⟨e1, f1, c1⟩ := copied_step e0 i.cols.images (x _ (by simp [columns]))
  obtain ⟨e2, f2, c2⟩ := copied_step e1 i.cols.heatmaps (x _ (by simp [columns]))
  obtain ⟨e3, f3, c3⟩ := copied_step e2 i.cols.segmaps (x _ (by simp [columns]))
  obtain ⟨e4, f4, c4⟩ := copied_step e3 i.cols.keypoints (x _ (by simp [columns]))
  obtain ⟨e5, f5, c5⟩ := copied_step e4 i.cols.boxes (x _ (by simp [columns]))
  obtain ⟨e6, f6, c6⟩ := copied_step e5 i.cols.polygons (x _ (by simp [columns]))
  obtain ⟨e7, f7, c7⟩ := copied_step e6 i.cols.lines (x _ (by simp [columns]))
  have fin : ∀ o p, Copied h (deepcopyIn i h).2 o p → seen (deepcopyIn i h).2 p = seen h o ∧ ∀ a ∈ parts (deepcopyIn i h).2 p, h.next ≤ a :=
    fun o p c => ⟨c.1, fun a ha => (c.2 a ha).1⟩
  refine ⟨fun o ho => seen_ext e7 o ho,
    fin _ _ (copied_ext (f1.trans (f2.trans (f3.trans (f4.trans (f5.trans (f6.trans f7)))))) _ _ c0), fun c hc => ?_⟩
  simp only [columns, List.mem_cons, List.not_mem_nil, or_false] at hc
  rcases hc with rfl | rfl | rfl | rfl | rfl | rfl | rfl
  · exact fin _ _ (copied_ext (f2.trans (f3.trans (f4.trans (f5.trans (f6.trans f7))))) _ _ c1)
  · exact fin _ _ (copied_ext (f3.trans (f4.trans (f5.trans (f6.trans f7)))) _ _ c2)
  · exact fin _ _ (copied_ext (f4.trans (f5.trans (f6.trans f7))) _ _ c3)
  · exact fin _ _ (copied_ext (f5.trans (f6.trans f7)) _ _ c4)
  · exact fin _ _ (copied_ext (f6.trans f7) _ _ c5)
  · exact fin _ _ (copied_ext f7 _ _ c6)
  · exact fin _ _ c7

example : (deepcopyIn ⟨demoBatch.unaug, demoBatch.data⟩ demoHeap).1 = ⟨⟨some 8, some 9, none, none, none, none, none⟩, some 5⟩ := by decide +kernel

theorem deepcopy_ext (i : InAug) (h : Heap α) (x : ∀ c ∈ columns, Known h (c i.cols)) (xd : Known h i.data) : Ext h (deepcopyIn i h).2 := by
  obtain ⟨e0, _, _⟩ := copied_step (Ext.refl h) i.data xd
  obtain ⟨e1, _, _⟩ := copied_step e0 i.cols.images (x _ (by simp [columns]))
  obtain ⟨e2, _, _⟩ := copied_step e1 i.cols.heatmaps (x _ (by simp [columns]))
  obtain ⟨e3, _, _⟩ := copied_step e2 i.cols.segmaps (x _ (by simp [columns]))
  obtain ⟨e4, _, _⟩ := copied_step e3 i.cols.keypoints (x _ (by simp [columns]))
  obtain ⟨e5, _, _⟩ := copied_step e4 i.cols.boxes (x _ (by simp [columns]))
  obtain ⟨e6, _, _⟩ := copied_step e5 i.cols.polygons (x _ (by simp [columns]))
  exact (copied_step e6 i.cols.lines (x _ (by simp [columns]))).1

theorem branch_ext (f : InAug → Heap α → InAug × Heap α) (hf : InPlace f) (i : InAug) (h : Heap α) (x : ∀ c ∈ columns, Known h (c i.cols))
    (xd : Known h i.data) : Ext h (f (deepcopyIn i h).1 (deepcopyIn i h).2).2 := by
  have e := deepcopy_ext i h x xd
  obtain ⟨h1, h2⟩ := hf (deepcopyIn i h).1 (deepcopyIn i h).2
  refine ⟨le_trans e.1 h1, fun a ha => ?_⟩
  refine (h2 a (lt_of_lt_of_le ha e.1) (fun c hc hm => ?_)).trans (e.2 a ha)
  have := ((copy_separate i h x xd).2.2 c hc).2 a hm
  omega

/-- C137: the two branches of a blending augmenter do not disturb each other or the batch: the foreground is augmented from the batch, then the
background from what the batch still shows; neither changes what existed before, and what the foreground gave is not changed by the background.
A branch without augmenters is the batch itself. -/
theorem branches_separate (fg bg : Option (InAug → Heap α → InAug × Heap α)) (hf : ∀ f ∈ fg, InPlace f) (hg : ∀ g ∈ bg, InPlace g)
    (i : InAug) (h : Heap α) (x : ∀ c ∈ columns, Known h (c i.cols)) (xd : Known h i.data) :
    (∀ o, Known h o → seen (branches fg bg i h).2.2 o = seen h o) ∧
    (fg = none → (branches fg bg i h).1 = i) ∧ (bg = none → (branches fg bg i h).2.1 = i) ∧
    (∀ f, fg = some f → (branches fg bg i h).1 = (f (deepcopyIn i h).1 (deepcopyIn i h).2).1 ∧
      ∀ o, Known (f (deepcopyIn i h).1 (deepcopyIn i h).2).2 o →
        seen (branches fg bg i h).2.2 o = seen (f (deepcopyIn i h).1 (deepcopyIn i h).2).2 o) ∧
    (∀ g, bg = some g → ∃ (j : InAug) (k : Heap α), (branches fg bg i h).2.1 = (g j k).1 ∧ (branches fg bg i h).2.2 = (g j k).2 ∧
      ∀ c ∈ columns, seen k (c j.cols) = seen h (c i.cols) ∧ ∀ a ∈ parts k (c j.cols), h.next ≤ a) := by
  -- the memory after the foreground
  have key : ∀ k : Heap α, Ext h k → (∀ c ∈ columns, Known k (c i.cols)) ∧ Known k i.data :=
    fun k e => ⟨fun c hc => exists_ext e _ (x c hc), exists_ext e _ xd⟩
  cases fg with
  | none =>
    cases bg with
    | none => exact ⟨fun _ _ => rfl, fun _ => rfl, fun _ => rfl, fun f hf => (by cases hf), fun g hg => (by cases hg)⟩
    | some g =>
      have e := branch_ext g (hg g rfl) i h x xd
      refine ⟨fun o ho => seen_ext e o ho, fun _ => rfl, fun hn => (by cases hn), fun f hf => (by cases hf), ?_⟩
      rintro _ ⟨⟩
      exact ⟨_, _, rfl, rfl, fun c hc => (copy_separate i h x xd).2.2 c hc⟩
  | some f =>
    have e := branch_ext f (hf f rfl) i h x xd
    cases bg with
    | none =>
      refine ⟨fun o ho => seen_ext e o ho, fun hn => (by cases hn), fun _ => rfl, ?_, fun g hg => (by cases hg)⟩
      rintro _ ⟨⟩
      exact ⟨rfl, fun _ _ => rfl⟩
    | some g =>
      obtain ⟨y, yd⟩ := key _ e
      have e2 := branch_ext g (hg g rfl) i _ y yd
      refine ⟨fun o ho => seen_ext (e.trans e2) o ho, fun hn => (by cases hn), fun hn => (by cases hn), ?_, ?_⟩
      · rintro _ ⟨⟩
        exact ⟨rfl, fun o ho => seen_ext e2 o ho⟩
      · rintro _ ⟨⟩
        refine ⟨_, _, rfl, rfl, fun c hc => ?_⟩
        obtain ⟨h1, h2⟩ := (copy_separate i _ y yd).2.2 c hc
        exact ⟨h1.trans (seen_ext e _ (x c hc)), fun a ha => le_trans e.1 (h2 a ha)⟩

example : (branches (some demoAug) (some demoAug) ⟨demoBatch.unaug, none⟩ demoHeap).1.cols.heatmaps = some 8 ∧
    (branches (some demoAug) (some demoAug) ⟨demoBatch.unaug, none⟩ demoHeap).2.1.cols.heatmaps = some 12 ∧
    (branches (some demoAug) none ⟨demoBatch.unaug, none⟩ demoHeap).2.1 = ⟨demoBatch.unaug, none⟩ := by decide +kernel

end Imgaug.BatchCopy.Props
