import Verif.Props.Meta
/-! Further properties of the augmenter framework: what hooks may change (C39), the random state of deterministic augmenters
(C34), and the child lists of `Sometimes` (C38). -/
namespace Imgaug.Meta
open Imgaug
variable {G ρ κ δ : Type}

/-- C39: the hooks `preprocessor` and `postprocessor`. Augmenting with hooks is the same as replacing each non-empty column by
what the preprocessor returns for it, then augmenting with the remaining (deciding) hooks, then replacing each non-empty
column by what the postprocessor returns for it. -/
theorem pre_and_postprocessor (env : Env G ρ κ δ) (h : Hooks ρ κ) (i : Nat) (body : Runner G ρ κ δ) (parents : List Nat)
    (w : World G) (b : Batch ρ κ δ) :
    augmentBatch env (some h) i body parents w b =
      (augmentBatch env (some h.deciding) i body parents w (onColumns (h.preprocess i parents) b)).map (fun r =>
        (r.1, onColumns (h.postprocess i parents) r.2)) := by
  unfold augmentBatch
  simp only [Hooks.deciding, mapColumns_id, switchedOff, Option.map_map, Function.comp_def]
  simp only [mapColumns_eq]

/-- C34: after an augmentation with an augmenter in deterministic mode its random number generator is in the state in which it
was before, whatever the augmenter and the hooks do. -/
theorem deterministic_keeps_rng (env : Env G ρ κ δ) (hooks : Option (Hooks ρ κ)) (i : Nat) (hdet : env.deterministic i = true)
    (body : Runner G ρ κ δ) (parents : List Nat) (w w' : World G) (b b' : Batch ρ κ δ)
    (h : augmentBatch env hooks i body parents w b = some (w', b')) : w' (env.rngOf i) = w (env.rngOf i) := by
  unfold augmentBatch at h
  obtain ⟨r, hr, he⟩ := Option.map_eq_some_iff.1 h
  simp only [Prod.mk.injEq] at he
  obtain ⟨rfl, -⟩ := he
  generalize hide _ _ = b1 at hr
  unfold guarded at hr
  split at hr
  · cases hr; rfl
  · obtain ⟨q, -, rfl⟩ := Option.map_eq_some_iff.1 hr
    simp [restoreRng, hdet, World.put]

/-- C34: the generators of other augmenters end in the state in which the augmentation leaves them. -/
theorem other_rngs_advance (env : Env G ρ κ δ) (i : Nat) (hact : env.activated i = true)
    (body : Runner G ρ κ δ) (parents : List Nat) (w w' : World G) (b b' : Batch ρ κ δ) (hb : b.nbRows ≠ 0)
    (h : body parents w b = some (w', b')) : ∃ w'', augmentBatch env none i body parents w b = some (w'', b') ∧
      (∀ r : Nat, r ≠ env.rngOf i → w'' r = w' r) ∧
      w'' (env.rngOf i) = if env.deterministic i then w (env.rngOf i) else w' (env.rngOf i) := by
  rw [augmentBatch_nohooks env i hact]
  unfold guarded
  rw [if_neg (by simpa [isEmpty] using hb), h]
  refine ⟨_, rfl, fun r hr => ?_, ?_⟩
  · unfold restoreRng
    split
    · simp [World.put, hr]
    · rfl
  · unfold restoreRng
    split <;> simp [World.put]

/-- C38: `Sometimes` with two child lists of any length and kind (also empty ones): rows with sample 1 are changed as the
then-list changes them, rows with sample 0 as the else-list does, others not at all. -/
theorem sometimes_child_lists [DecidableEq κ] (env : Env G ρ κ δ) (hf : env.Fair) (i : Nat) (hact : env.activated i = true)
    (draw : Nat → G → List ℚ × G) (hdraw : ∀ (N : Nat) (g : G), (draw N g).1.length = N)
    (t e : Node G ρ κ δ) (T E : Row ρ → Row ρ → Prop) (hT : Acts (run env none t) T) (hE : Acts (run env none e) E)
    (parents : List Nat) (w : World G) (b : Batch ρ κ δ) (hb : Rect b.nbRows b) :
    ∃ (w' : World G) (b' : Batch ρ κ δ), run env none (.sometimes i draw (some t) (some e)) parents w b = some (w', b') ∧
      Related (fun j x y => ∃ s : ℚ, (draw b.nbRows (w (env.rngOf i))).1[j]? = some s ∧
        (s = 1 → T x y) ∧ (s = 0 → E x y) ∧ (s ≠ 1 → s ≠ 0 → y = x)) b b' := by
  obtain ⟨T', hT', hT'0, hTT⟩ := runOpt_acts env hf t T hT w
  obtain ⟨E', hE', hE'0, hEE⟩ := runOpt_acts env hf e E hE w
  obtain ⟨w1, b1, h1, hr⟩ := sometimes_rows env i draw hdraw (runOpt env none (some t)) (runOpt env none (some e)) T' E'
    hT' hE' hT'0 hE'0 parents w b hb
  by_cases hz : b.nbRows = 0
  · refine ⟨w, b, ?_, rfl, rfl, fun j hj => by omega⟩
    rw [run]
    exact augmentBatch_empty env _ _ _ _ _ (by simp [isEmpty, hz])
  · refine ⟨restoreRng env i w w1, b1, ?_, hr.1, hr.2.1, fun j hj => ?_⟩
    · rw [run, augmentBatch_nohooks env i hact]
      unfold guarded
      rw [if_neg (by simpa [isEmpty] using hz), h1]
      rfl
    · obtain ⟨s, hs, ha, hc, hd⟩ := hr.2.2 j hj
      exact ⟨s, hs, fun h => hTT b hb j hj _ (ha h), fun h => hEE b hb j hj _ (hc h), hd⟩

/-- Lists of one augmenter are used. -/
example : ((run exEnv none (.sometimes 0 (fun N g => ((List.range N).map (fun (i : Nat) => if i % 2 = 0 then (1 : ℚ) else 0), g))
    (some (.seq 1 false [.prim 2 (exChild 7)])) (some (.seq 3 false []))) [] (fun _ => 1) exBatch).map
    (fun r => [r.2.col .images, r.2.col .keypoints])) =
    some [some (.arr 0 [17, 2, 37]), some (.lst [47, 5, 67])] := by decide +kernel

/-- Hooks with a preprocessor that adds a row to lists and a postprocessor that removes it. -/
example : (augmentBatch exEnv (some ⟨fun _ _ c => match c with | .lst r => .lst (0 :: r) | c => c, fun _ _ a _ => a, fun _ _ _ => true,
      fun _ _ c => match c with | .lst r => .lst (r.drop 1) | c => c⟩) 0 (exChild 7) [] (fun _ => 1)
      (⟨fun | .keypoints => some (.lst [4, 5, 6]) | _ => none, ()⟩ : Batch Nat Nat Unit)).map (fun r => r.2.col .keypoints) =
    some (some (.lst [47, 57, 67])) := by decide +kernel

/-- A deterministic augmenter whose code uses its generator. -/
example : ((augmentBatch { exEnv with deterministic := fun _ => true } none 0 (fun _ w b => some (w.put 0 99, b)) []
    (fun _ => 1) exBatch).map (fun r => r.1 0)) = some 1 := by decide +kernel

end Imgaug.Meta
