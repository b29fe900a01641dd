import Verif.Spec.Meta
import Verif.Proofs.Batch
import Verif.Props.Batch
import Mathlib.Tactic.Common
import Mathlib.Tactic.Ring
import Mathlib.Data.List.Count
/-! Helper lemmas for Props/Meta.lean. -/
namespace Imgaug.Meta
open Imgaug Imgaug.Props
variable {G ρ κ δ : Type}

theorem colLengths_none {b b' : Batch ρ κ δ} (h : colLengths b' = colLengths b) (n : ColName) :
    b'.col n = none ↔ b.col n = none := by
  have := congrFun h n
  unfold colLengths at this
  cases h1 : b.col n <;> cases h2 : b'.col n <;> simp [h1, h2] at this ⊢

theorem colLengths_some {b b' : Batch ρ κ δ} (h : colLengths b' = colLengths b) (n : ColName) {c c' : Col ρ κ}
    (hc : b.col n = some c) (hc' : b'.col n = some c') : c'.rows.length = c.rows.length := by
  have := congrFun h n
  unfold colLengths at this
  simpa [hc, hc'] using this

theorem nbRows_eq (b : Batch ρ κ δ) : b.nbRows = ((ColName.all.filterMap (colLengths b)).head?).getD 0 := by
  have : ColName.all.filterMap (colLengths b) = (ColName.all.filterMap b.col).map (fun c => c.rows.length) := by
    rw [List.map_filterMap]; rfl
  rw [this]
  unfold Batch.nbRows
  cases ColName.all.filterMap b.col <;> simp

theorem nbRows_congr {b b' : Batch ρ κ δ} (h : colLengths b' = colLengths b) : b'.nbRows = b.nbRows := by
  rw [nbRows_eq, nbRows_eq, h]

theorem rect_congr {N : Nat} {b b' : Batch ρ κ δ} (h : colLengths b' = colLengths b) (hb : Rect N b) : Rect N b' := by
  intro n c hc
  cases hn : b.col n with
  | none => rw [(colLengths_none h n).2 hn] at hc; cases hc
  | some c0 => rw [colLengths_some h n hn hc]; exact hb n c0 hn

theorem nbRows_rect {N : Nat} {b : Batch ρ κ δ} (h : Rect N b) : b.nbRows = N ∨ (b.nbRows = 0 ∧ ∀ n, b.col n = none) := by
  unfold Batch.nbRows
  cases hl : ColName.all.filterMap b.col with
  | nil =>
    refine Or.inr ⟨rfl, fun n => ?_⟩
    have := List.filterMap_eq_nil_iff.1 hl n (by cases n <;> simp [ColName.all])
    exact this
  | cons c cs =>
    left
    have hc : c ∈ ColName.all.filterMap b.col := by rw [hl]; simp
    obtain ⟨n, -, hn⟩ := List.mem_filterMap.1 hc
    exact h n c hn

theorem rect_nbRows {N : Nat} {b : Batch ρ κ δ} (h : Rect N b) : Rect b.nbRows b := by
  rcases nbRows_rect h with h1 | ⟨-, h2⟩
  · rw [h1]; exact h
  · intro n c hc; rw [h2 n] at hc; cases hc

theorem related_trans {R S T : Nat → Row ρ → Row ρ → Prop} {a b c : Batch ρ κ δ} (h1 : Related R a b) (h2 : Related S b c)
    (h : ∀ j x y z, R j x y → S j y z → T j x z) : Related T a c := by
  refine ⟨by rw [h2.1, h1.1], by rw [h2.2.1, h1.2.1], fun j hj => ?_⟩
  exact h j _ _ _ (h1.2.2 j hj) (h2.2.2 j (by rw [nbRows_congr h1.2.1]; exact hj))

theorem related_refl {R : Nat → Row ρ → Row ρ → Prop} (b : Batch ρ κ δ) (h : ∀ j x, R j x x) : Related R b b :=
  ⟨rfl, rfl, fun j _ => h j _⟩

theorem related_mono {R S : Nat → Row ρ → Row ρ → Prop} {a b : Batch ρ κ δ} (h1 : Related R a b)
    (h : ∀ j x y, R j x y → S j x y) : Related S a b :=
  ⟨h1.1, h1.2.1, fun j hj => h j _ _ (h1.2.2 j hj)⟩

/-- Applying an augmenter to some rows changes exactly these rows. -/
theorem applyToRows_spec [DecidableEq κ] (env : Env G ρ κ δ) (c : Runner G ρ κ δ) (R : Row ρ → Row ρ → Prop)
    (hc : Acts c R) (rows parents : List Nat) (w : World G) (b : Batch ρ κ δ) (hb : Rect b.nbRows b)
    (hnd : rows.Nodup) (hlt : ∀ r ∈ rows, r < b.nbRows) :
    ∃ w' b', applyToRows env c rows parents w b = some (w', b') ∧
      Related (fun j x y => if j ∈ rows then R x y else y = x) b b' := by
  have hlt' : ∀ n c, b.col n = some c → ∀ i ∈ rows, i < c.rows.length := by
    intro n c hn i hi; rw [hb n c hn]; exact hlt i hi
  obtain ⟨sub, hsub, hsd, hsc⟩ := subselect_spec b rows hlt'
  have hsrect : Rect rows.length sub := by
    intro n s hs
    cases hn : b.col n with
    | none => rw [(hsc n).1 hn] at hs; cases hs
    | some c0 =>
      by_cases h0 : rows = []
      · rw [(hsc n).2.1 h0] at hs; cases hs
      · obtain ⟨rws, hl, -, he⟩ := (hsc n).2.2 c0 hn h0
        rw [he] at hs; cases hs
        cases c0 <;> simpa [Col.withRows, Col.rows] using hl
  obtain ⟨w', sub', hrun, hrel⟩ := hc parents w sub (rect_nbRows hsrect)
  have hsrect' := rect_congr hrel.2.1 hsrect
  obtain ⟨r, hr, hrd, hrc⟩ := invert_subselect_spec env.kindOf b sub' rows hnd hlt' (fun n c hn => hsrect' n c hn)
  refine ⟨w', r, ?_, hrd, ?_, ?_⟩
  · unfold applyToRows
    rw [hsub, Option.bind_some, hrun, Option.bind_some, hr]; rfl
  · funext n
    unfold colLengths
    cases hn : b.col n with
    | none => rw [(hrc n).1 hn]
    | some c0 =>
      cases hs : sub'.col n with
      | none => rw [(hrc n).2.1 hs, hn]
      | some s' =>
        obtain ⟨c', hc', hlen, -⟩ := (hrc n).2.2 c0 s' hn hs
        rw [hc']; simp [hlen]
  · intro j hj
    by_cases hjr : j ∈ rows
    · simp only [if_pos hjr]
      have h0 : rows ≠ [] := fun h => by rw [h] at hjr; cases hjr
      obtain ⟨m, hm, hjm⟩ := List.getElem_of_mem hjr
      have hbs : rowAt sub m = rowAt b j := by
        funext n
        unfold rowAt
        cases hn : b.col n with
        | none => rw [(hsc n).1 hn]; rfl
        | some c0 =>
          obtain ⟨rws, hl, hget, he⟩ := (hsc n).2.2 c0 hn h0
          have hwr : (c0.withRows rws).rows = rws := by cases c0 <;> rfl
          rw [he]; simp only [Option.bind_some, hwr]
          rw [hget m hm, hjm]
      have hrs : rowAt r j = rowAt sub' m := by
        funext n
        unfold rowAt
        cases hn : b.col n with
        | none =>
          rw [(hrc n).1 hn, (colLengths_none hrel.2.1 n).2 ((hsc n).1 hn)]; rfl
        | some c0 =>
          obtain ⟨rws, hl, hget, he⟩ := (hsc n).2.2 c0 hn h0
          cases hs : sub'.col n with
          | none => rw [(colLengths_none hrel.2.1 n).1 hs] at he; cases he
          | some s' =>
            obtain ⟨c', hc', hlen, hat, -, -⟩ := (hrc n).2.2 c0 s' hn hs
            rw [hc']
            simp only [Option.bind_some]
            have := hat m hm
            rw [hjm] at this
            exact this
      rw [← hbs, hrs]
      apply hrel.2.2 m
      rcases nbRows_rect hsrect with h1 | ⟨-, h2⟩
      · rw [h1]; exact hm
      · exfalso
        -- some column of `b` exists since it has rows
        rcases nbRows_rect hb with _ | ⟨h3, -⟩
        · cases hall : ColName.all.filterMap b.col with
          | nil => unfold Batch.nbRows at hj; rw [hall] at hj; cases hj
          | cons c0 _ =>
            have hc : c0 ∈ ColName.all.filterMap b.col := by rw [hall]; simp
            obtain ⟨n, -, hn⟩ := List.mem_filterMap.1 hc
            obtain ⟨rws, hl, hget, he⟩ := (hsc n).2.2 c0 hn h0
            rw [h2 n] at he; cases he
        · omega
    · simp only [if_neg hjr]
      funext n
      unfold rowAt
      cases hn : b.col n with
      | none => rw [(hrc n).1 hn]
      | some c0 =>
        cases hs : sub'.col n with
        | none => rw [(hrc n).2.1 hs, hn]
        | some s' =>
          obtain ⟨c', hc', hlen, -, hother, -⟩ := (hrc n).2.2 c0 s' hn hs
          rw [hc']; simp only [Option.bind_some]
          exact hother j hjr

theorem activeRows_mem (active : List (List Bool)) (k r : Nat) :
    r ∈ activeRows active k ↔ ∃ row, active[r]? = some row ∧ row[k]? = some true := by
  unfold activeRows
  rw [List.mem_filter, List.mem_range]
  constructor
  · rintro ⟨h1, h2⟩
    refine ⟨active[r], List.getElem?_eq_getElem h1, ?_⟩
    rw [List.getElem?_eq_getElem h1, Option.getD_some] at h2
    cases h : active[r][k]? with
    | none => rw [h] at h2; cases h2
    | some v => rw [h] at h2; exact congrArg some h2
  · rintro ⟨row, h1, h2⟩
    obtain ⟨hlt, -⟩ := List.getElem?_eq_some_iff.1 h1
    exact ⟨hlt, by rw [h1, Option.getD_some, h2, Option.getD_some]⟩

theorem activeRows_nodup (active : List (List Bool)) (k : Nat) : (activeRows active k).Nodup :=
  List.nodup_range.filter _

theorem someOfLoop_spec [DecidableEq κ] (env : Env G ρ κ δ) (children : List (Runner G ρ κ δ)) (active : List (List Bool))
    (R : Nat → Row ρ → Row ρ → Prop) (hacts : ∀ (k : Nat) c, children[k]? = some c → Acts c (R k)) (parents : List Nat)
    (ks : List Nat) (hks : ∀ k ∈ ks, k < children.length) (w : World G) (b : Batch ρ κ δ)
    (hb : Rect b.nbRows b) (hlen : active.length = b.nbRows) :
    ∃ w' b', someOfLoop env children active parents ks w b = some (w', b') ∧
      Related (fun j x y => Chain R (ks.filter (fun k => decide (j ∈ activeRows active k))) x y) b b' := by
  induction ks generalizing w b with
  | nil =>
    refine ⟨w, b, rfl, related_refl b (fun j x => ?_)⟩
    rfl
  | cons k ks ih =>
    have hks' : ∀ k ∈ ks, k < children.length := fun k hk => hks k (by simp [hk])
    unfold someOfLoop
    by_cases h0 : activeRows active k = []
    · rw [if_pos h0]
      obtain ⟨w', b', h1, h2⟩ := ih hks' w b hb hlen
      refine ⟨w', b', h1, related_mono h2 ?_⟩
      intro j x y hxy
      rw [List.filter_cons_of_neg (by simp [h0])]
      exact hxy
    · rw [if_neg h0]
      have hk := hks k (by simp)
      rw [List.getElem?_eq_getElem hk]
      obtain ⟨w1, b1, h1, h2⟩ := applyToRows_spec env children[k] (R k) (hacts k _ (List.getElem?_eq_getElem hk))
        (activeRows active k) parents w b hb (activeRows_nodup active k) (fun r hr => by
          obtain ⟨row, hrow, -⟩ := (activeRows_mem active k r).1 hr
          rw [← hlen]
          exact (List.getElem?_eq_some_iff.1 hrow).1)
      have hn1 := nbRows_congr h2.2.1
      obtain ⟨w2, b2, h3, h4⟩ := ih hks' w1 b1 (by rw [hn1]; exact rect_congr h2.2.1 hb) (by rw [hn1, hlen])
      refine ⟨w2, b2, by simp only [h1, Option.bind_some, h3], related_trans h2 h4 ?_⟩
      intro j x y z hxy hyz
      by_cases hj : j ∈ activeRows active k
      · simp only [if_pos hj] at hxy
        rw [List.filter_cons_of_pos (by simp [hj])]
        exact ⟨y, hxy, hyz⟩
      · simp only [if_neg hj] at hxy
        rw [List.filter_cons_of_neg (by simp [hj])]
        rw [hxy] at hyz; exact hyz

theorem drawOrder_perm (env : Env G ρ κ δ) (hf : env.Fair) (ro : Bool) (n : Nat) (g : G) :
    (drawOrder env ro n g).1.Perm (List.range n) := by
  unfold drawOrder
  split
  · exact hf.permutation n g
  · exact List.Perm.refl _

theorem shuffleRows_spec (env : Env G ρ κ δ) (hf : env.Fair) (rows : List (List Bool)) (g : G) :
    (shuffleRows env rows g).1.length = rows.length ∧
      ∀ (r : Nat) row, (shuffleRows env rows g).1[r]? = some row → ∃ row0, rows[r]? = some row0 ∧ row.Perm row0 := by
  induction rows generalizing g with
  | nil => exact ⟨rfl, by simp [shuffleRows]⟩
  | cons x xs ih =>
    obtain ⟨h1, h2⟩ := ih (env.shuffle x g).2
    refine ⟨by simp [shuffleRows, h1], ?_⟩
    intro r row hr
    cases r with
    | zero =>
      simp [shuffleRows] at hr
      exact ⟨x, by simp, by rw [← hr]; exact hf.shuffle x g⟩
    | succ r => simpa using h2 r row (by simpa [shuffleRows] using hr)

theorem activeRow_count (len : Nat) (n : Int) : (activeRow len n).count true = expected n len := by
  unfold activeRow expected
  have : ∀ m : Nat, ((List.range m).map (fun (j : Nat) => decide ((j : Int) < min n len))).count true =
      (max 0 (min n (min len m))).toNat := by
    intro m
    induction m with
    | zero => simp
    | succ m ih =>
      rw [List.range_succ, List.map_append, List.count_append, ih]
      simp only [List.map_cons, List.map_nil, List.count_singleton, beq_true, decide_eq_true_eq]
      by_cases h : (m : Int) < min n len
      · rw [if_pos h]; omega
      · rw [if_neg h]; omega
  rw [this]; congr 1; omega

theorem filter_count (order : List Nat) (row : List Bool) (h : order.Perm (List.range row.length)) :
    (order.filter (fun k => decide (row[k]? = some true))).length = row.count true := by
  have h1 := (h.filter (fun k => decide (row[k]? = some true))).length_eq
  rw [h1]
  clear h h1 order
  induction row with
  | nil => rfl
  | cons x xs ih =>
    rw [List.length_cons, List.range_succ_eq_map, List.filter_cons]
    have : ((List.map Nat.succ (List.range xs.length)).filter (fun k => decide ((x :: xs)[k]? = some true))).length =
        xs.count true := by
      rw [List.filter_map, List.length_map, ← ih]
      congr 1
    cases x <;> simp [this]

end Imgaug.Meta

namespace Imgaug.Meta
open Imgaug Imgaug.Props
variable {G ρ κ δ : Type}

theorem batch_ext {b b' : Batch ρ κ δ} (hd : b'.data = b.data) (hc : ∀ n, b'.col n = b.col n) : b' = b := by
  cases b; cases b'; simp only at hd hc; subst hd; congr; funext n; exact hc n

theorem foldl_setCol_data {α : Type} (l : List α) (f : α → ColName) (g : α → Option (Col ρ κ)) (b : Batch ρ κ δ) :
    (l.foldl (fun b x => b.setCol (f x) (g x)) b).data = b.data := by
  induction l generalizing b with
  | nil => rfl
  | cons x l ih => rw [List.foldl_cons, ih]; rfl

theorem hide_col (off : List (ColName × Col ρ κ)) (b : Batch ρ κ δ) (n : ColName) :
    (hide off b).col n = if n ∈ off.map Prod.fst then none else b.col n := foldl_setCol_none off b n

theorem mapColumns_id (b : Batch ρ κ δ) : mapColumns (fun c => c) b = b := by
  refine batch_ext (foldl_setCol_data _ _ _ b) (fun n => ?_)
  have h := foldl_setCol_some b.columns b n (columns_nodup b)
  by_cases hn : n ∈ b.columns.map Prod.fst
  · obtain ⟨⟨m, c⟩, hm, rfl⟩ := List.mem_map.1 hn
    rw [((columns_mem b m c).1 hm).1]
    exact h.1 c hm
  · exact h.2 hn

/-- Hiding all non-empty columns leaves an empty batch. -/
theorem hide_all_empty (b : Batch ρ κ δ) : isEmpty (hide b.columns b) = true := by
  unfold isEmpty Batch.nbRows
  cases hl : ColName.all.filterMap (hide b.columns b).col with
  | nil => rfl
  | cons c cs =>
    have hc : c ∈ ColName.all.filterMap (hide b.columns b).col := by rw [hl]; simp
    obtain ⟨n, -, hn⟩ := List.mem_filterMap.1 hc
    rw [hide_col] at hn
    split at hn
    · cases hn
    · rename_i h
      have : ¬ c.rows.length > 0 := fun hlen => h (List.mem_map.2 ⟨(n, c), (columns_mem b n c).2 ⟨hn, hlen⟩, rfl⟩)
      simp only [beq_iff_eq]; omega

theorem unhide_col (off : List (ColName × Col ρ κ)) (b r : Batch ρ κ δ) (hs : off.Sublist b.columns) (n : ColName) :
    (unhide off r).col n = if n ∈ off.map Prod.fst then b.col n else r.col n := by
  have hnd : (off.map Prod.fst).Nodup := (hs.map _).nodup (columns_nodup b)
  have h := foldl_setCol_some off r n hnd
  split
  · rename_i hn
    obtain ⟨⟨m, c⟩, hm, rfl⟩ := List.mem_map.1 hn
    rw [((columns_mem b m c).1 (hs.subset hm)).1]
    exact h.1 c hm
  · rename_i hn
    exact h.2 hn

theorem unhide_hide (off : List (ColName × Col ρ κ)) (b : Batch ρ κ δ) (hs : off.Sublist b.columns) :
    unhide off (hide off b) = b := by
  refine batch_ext ?_ (fun n => ?_)
  · unfold unhide hide; rw [foldl_setCol_data, foldl_setCol_data]
  · rw [unhide_col off b _ hs, hide_col]; split <;> rfl

theorem switchedOff_sublist (env : Env G ρ κ δ) (hooks : Option (Hooks ρ κ)) (i : Nat) (parents : List Nat)
    (b : Batch ρ κ δ) : (switchedOff env hooks i parents b).Sublist b.columns := by
  unfold switchedOff
  split
  · exact List.Sublist.refl _
  · split
    · exact List.nil_sublist _
    · exact List.filter_sublist

/-- Without hooks, an activated augmenter just runs its `_augment_batch_` on non-empty batches. -/
theorem augmentBatch_nohooks (env : Env G ρ κ δ) (i : Nat) (hact : env.activated i = true) (body : Runner G ρ κ δ)
    (parents : List Nat) (w : World G) (b : Batch ρ κ δ) :
    augmentBatch env none i body parents w b = guarded env i body parents w b := by
  unfold augmentBatch switchedOff
  simp only [hact, hide, unhide, List.foldl_nil, Bool.true_eq_false, if_false]
  cases guarded env i body parents w b <;> rfl

theorem augmentBatch_empty (env : Env G ρ κ δ) (i : Nat) (body : Runner G ρ κ δ) (parents : List Nat) (w : World G)
    (b : Batch ρ κ δ) (h : isEmpty b = true) : augmentBatch env none i body parents w b = some (w, b) := by
  by_cases hact : env.activated i = true
  · rw [augmentBatch_nohooks env i hact]; unfold guarded; rw [if_pos h]
  · have hact : env.activated i = false := by simpa using hact
    unfold augmentBatch
    simp only [switchedOff, if_pos hact]
    unfold guarded
    rw [if_pos (hide_all_empty b)]
    simp only [Option.map_some]
    rw [unhide_hide _ b (List.Sublist.refl _)]

theorem run_empty [DecidableEq κ] (env : Env G ρ κ δ) (nd : Node G ρ κ δ) (parents : List Nat) (w : World G)
    (b : Batch ρ κ δ) (h : isEmpty b = true) : run env none nd parents w b = some (w, b) := by
  cases nd <;> (rw [run]; exact augmentBatch_empty env _ _ _ _ _ h)

theorem compose_empty [DecidableEq κ] (env : Env G ρ κ δ) (cs : List (Node G ρ κ δ)) (parents : List Nat) (w : World G)
    (b : Batch ρ κ δ) (h : isEmpty b = true) : compose parents (cs.map (run env none)) w b = some (w, b) := by
  induction cs with
  | nil => rfl
  | cons c cs ih => rw [List.map_cons, compose, run_empty env c parents w b h, Option.bind_some]; exact ih

theorem runAll_eq_map [DecidableEq κ] (env : Env G ρ κ δ) (hooks : Option (Hooks ρ κ)) (cs : List (Node G ρ κ δ)) :
    runAll env hooks cs = cs.map (run env hooks) := by
  induction cs with
  | nil => rw [runAll]; rfl
  | cons c cs ih => rw [runAll, ih]; rfl

theorem runOrder_compose (children : List (Runner G ρ κ δ)) (parents : List Nat) (ks : List Nat)
    (hks : ∀ k ∈ ks, k < children.length) (w : World G) (b : Batch ρ κ δ) :
    runOrder children parents ks w b = compose parents (ks.filterMap (fun (k : Nat) => children[k]?)) w b := by
  induction ks generalizing w b with
  | nil => rfl
  | cons k ks ih =>
    have hk := hks k (by simp)
    unfold runOrder
    rw [List.filterMap_cons, List.getElem?_eq_getElem hk]
    simp only [compose]
    congr 1
    funext r
    exact ih (fun k hk => hks k (by simp [hk])) r.1 r.2

theorem filterMap_range_getElem {α : Type} (l : List α) : (List.range l.length).filterMap (fun (k : Nat) => l[k]?) = l := by
  induction l with
  | nil => rfl
  | cons x xs ih =>
    rw [List.length_cons, List.range_succ_eq_map, List.filterMap_cons]
    simp only [List.getElem?_cons_zero, List.filterMap_map]
    congr 1

theorem World.put_self (w : World G) (r : Nat) : w.put r (w r) = w := by
  funext i; unfold World.put; split
  · rename_i h; rw [h]
  · rfl

theorem compose_append (parents : List Nat) (cs ds : List (Runner G ρ κ δ)) (w : World G) (b : Batch ρ κ δ) :
    compose parents (cs ++ ds) w b = (compose parents cs w b).bind (fun r => compose parents ds r.1 r.2) := by
  induction cs generalizing w b with
  | nil => rfl
  | cons c cs ih =>
    rw [List.cons_append, compose, compose]
    cases c parents w b with
    | none => rfl
    | some r => simp only [Option.bind_some]; exact ih r.1 r.2

end Imgaug.Meta

namespace Imgaug.Meta
open Imgaug Imgaug.Props
variable {G ρ κ δ : Type}

theorem rowsWith_mem (samples : List ℚ) (v : ℚ) (r : Nat) : r ∈ rowsWith samples v ↔ samples[r]? = some v := by
  unfold rowsWith
  rw [List.mem_filter, List.mem_range, decide_eq_true_iff]
  exact ⟨fun h => h.2, fun h => ⟨(List.getElem?_eq_some_iff.1 h).1, h⟩⟩

theorem rowsWith_nodup (samples : List ℚ) (v : ℚ) : (rowsWith samples v).Nodup := List.nodup_range.filter _

theorem sometimesStep_spec [DecidableEq κ] (env : Env G ρ κ δ) (c : Option (Runner G ρ κ δ)) (R : Row ρ → Row ρ → Prop)
    (hc : ∀ r, c = some r → Acts r R) (h0 : c = none → ∀ x y, R x y ↔ y = x) (rows parents : List Nat) (w : World G)
    (b : Batch ρ κ δ) (hb : Rect b.nbRows b) (hnd : rows.Nodup) (hlt : ∀ r ∈ rows, r < b.nbRows) :
    ∃ w' b', sometimesStep env c rows parents w b = some (w', b') ∧
      Related (fun j x y => if j ∈ rows then R x y else y = x) b b' := by
  cases c with
  | none =>
    refine ⟨w, b, rfl, related_refl b (fun j x => ?_)⟩
    split
    · exact (h0 rfl x x).2 rfl
    · rfl
  | some c => exact applyToRows_spec env c R (hc c rfl) rows parents w b hb hnd hlt

end Imgaug.Meta

namespace Imgaug.Meta
open Imgaug Imgaug.Props
variable {G ρ κ δ : Type}

theorem hide_filter (accept : Col ρ κ → Bool) (b : Batch ρ κ δ) :
    hide (b.columns.filter (fun x => !accept x.2)) b = without accept b := by
  refine batch_ext (by unfold hide; rw [foldl_setCol_data]; rfl) (fun n => ?_)
  rw [hide_col]
  unfold without
  simp only
  cases hn : b.col n with
  | none => simp
  | some c =>
    have hiff : n ∈ (b.columns.filter (fun x => !accept x.2)).map Prod.fst ↔ c.rows.length > 0 ∧ accept c = false := by
      rw [List.mem_map]
      constructor
      · rintro ⟨⟨m, c'⟩, hm, rfl⟩
        rw [List.mem_filter, columns_mem, hn] at hm
        obtain ⟨⟨h1, h2⟩, h3⟩ := hm
        cases h1
        exact ⟨h2, by simpa using h3⟩
      · rintro ⟨h1, h2⟩
        exact ⟨(n, c), by rw [List.mem_filter, columns_mem]; exact ⟨⟨hn, h1⟩, by simp [h2]⟩, rfl⟩
    by_cases h : c.rows.length > 0 ∧ accept c = false
    · rw [if_pos (hiff.2 h)]
      have : c.rows ≠ [] := List.length_pos_iff.1 h.1
      simp [Option.filter, h.2, this]
    · rw [if_neg (fun h' => h (hiff.1 h'))]
      have : c.rows.isEmpty || accept c := by
        cases hr : c.rows with
        | nil => simp
        | cons x xs => 
          rw [hr] at h
          simpa using h
      simp only [Option.filter, this, if_true]

theorem unhide_filter (accept : Col ρ κ → Bool) (b r : Batch ρ κ δ) :
    unhide (b.columns.filter (fun x => !accept x.2)) r = putBack accept b r := by
  refine batch_ext (by unfold unhide; rw [foldl_setCol_data]; rfl) (fun n => ?_)
  rw [unhide_col _ b r List.filter_sublist]
  unfold putBack
  simp only
  have hiff : n ∈ (b.columns.filter (fun x => !accept x.2)).map Prod.fst ↔
      (b.col n).any (fun c => !c.rows.isEmpty && !accept c) = true := by
    rw [List.mem_map]
    constructor
    · rintro ⟨⟨m, c'⟩, hm, rfl⟩
      rw [List.mem_filter, columns_mem] at hm
      obtain ⟨⟨h1, h2⟩, h3⟩ := hm
      have : c'.rows ≠ [] := List.length_pos_iff.1 h2
      simp only at h1 h3 ⊢
      rw [h1]; simp [this]; simpa using h3
    · intro h
      cases hn : b.col n with
      | none => rw [hn] at h; simp at h
      | some c =>
        rw [hn] at h
        simp only [Option.any_some, Bool.and_eq_true, Bool.not_eq_true', List.isEmpty_eq_false_iff] at h
        exact ⟨(n, c), by rw [List.mem_filter, columns_mem]; exact ⟨⟨hn, List.length_pos_iff.2 h.1⟩, by simp [h.2]⟩, rfl⟩
  by_cases h : n ∈ (b.columns.filter (fun x => !accept x.2)).map Prod.fst
  · rw [if_pos h, if_pos (hiff.1 h)]
  · rw [if_neg h, if_neg (fun h' => h (hiff.2 h'))]

theorem propagationCtx_eq (h : Hooks ρ κ) (i : Nat) (parents : List Nat) (b : Batch ρ κ δ)
    (block : Batch ρ κ δ → Option (World G × Batch ρ κ δ)) :
    propagationCtx (some h) i parents b block = (block (without (h.propagates i parents) b)).map (fun r =>
      (r.1, putBack (h.propagates i parents) b r.2)) := by
  unfold propagationCtx
  have h1 : (Batch.applyHooks (h.propagates i parents) b).1 = without (h.propagates i parents) b := hide_filter _ b
  have h2 : ∀ r, Batch.invHooks r (Batch.applyHooks (h.propagates i parents) b).2 = putBack (h.propagates i parents) b r :=
    fun r => unhide_filter _ b r
  simp only [h1, h2]

theorem putBack_without (accept : Col ρ κ → Bool) (b : Batch ρ κ δ) : putBack accept b (without accept b) = b := by
  rw [← hide_filter, ← unhide_filter, unhide_hide _ b List.filter_sublist]

theorem augmentBatch_plain (env : Env G ρ κ δ) (h : Hooks ρ κ) (hp : h.Plain) (i : Nat) (hact : env.activated i = true)
    (body : Runner G ρ κ δ) (parents : List Nat) (w : World G) (b : Batch ρ κ δ) :
    augmentBatch env (some h) i body parents w b =
      (guarded env i body parents w (without (h.activated i parents true) b)).map (fun r =>
        (r.1, putBack (h.activated i parents true) b r.2)) := by
  have hpre : h.preprocess i parents = fun c => c := funext (hp.preprocess i parents)
  have hpost : h.postprocess i parents = fun c => c := funext (hp.postprocess i parents)
  unfold augmentBatch
  simp only [hpre, hpost, mapColumns_id, switchedOff, hact, Bool.true_eq_false, if_false]
  rw [hide_filter]
  simp only [unhide_filter]

theorem augmentBatch_off (env : Env G ρ κ δ) (h : Hooks ρ κ) (hp : h.Plain) (i : Nat) (hact : env.activated i = false)
    (body : Runner G ρ κ δ) (parents : List Nat) (w : World G) (b : Batch ρ κ δ) :
    augmentBatch env (some h) i body parents w b = some (w, b) := by
  have hpre : h.preprocess i parents = fun c => c := funext (hp.preprocess i parents)
  have hpost : h.postprocess i parents = fun c => c := funext (hp.postprocess i parents)
  unfold augmentBatch
  simp only [hpre, hpost, mapColumns_id, switchedOff, hact, if_true]
  unfold guarded
  rw [if_pos (hide_all_empty b)]
  simp only [Option.map_some]
  rw [unhide_hide _ b (List.Sublist.refl _)]

theorem foldl_setCol_f (f : Col ρ κ → Col ρ κ) (l : List (ColName × Col ρ κ)) (b : Batch ρ κ δ) (n : ColName)
    (hd : (l.map Prod.fst).Nodup) :
    (∀ c, (n, c) ∈ l → (l.foldl (fun b x => b.setCol x.1 (some (f x.2))) b).col n = some (f c)) ∧
    (n ∉ l.map Prod.fst → (l.foldl (fun b x => b.setCol x.1 (some (f x.2))) b).col n = b.col n) := by
  induction l generalizing b with
  | nil => simp
  | cons a l ih =>
    rw [List.map_cons, List.nodup_cons] at hd
    obtain ⟨h1, h2⟩ := ih (b.setCol a.1 (some (f a.2))) hd.2
    refine ⟨fun c hc => ?_, fun hn => ?_⟩
    · rw [List.foldl_cons]
      rcases List.mem_cons.1 hc with rfl | hc
      · rw [h2 hd.1]; simp [Batch.setCol]
      · exact h1 c hc
    · rw [List.map_cons, List.mem_cons, not_or] at hn
      rw [List.foldl_cons, h2 hn.2]
      simp [Batch.setCol, hn.1]

theorem mapColumns_eq (f : Col ρ κ → Col ρ κ) (b : Batch ρ κ δ) : mapColumns f b = onColumns f b := by
  refine batch_ext (foldl_setCol_data _ _ _ b) (fun n => ?_)
  have h := foldl_setCol_f f b.columns b n (columns_nodup b)
  show (b.columns.foldl (fun b x => b.setCol x.1 (some (f x.2))) b).col n =
    (b.col n).map (fun c => if c.rows = [] then c else f c)
  by_cases hm : n ∈ b.columns.map Prod.fst
  · obtain ⟨⟨m, c⟩, hm', rfl⟩ := List.mem_map.1 hm
    have hc := (columns_mem b m c).1 hm'
    rw [h.1 c hm', hc.1]
    have : c.rows ≠ [] := List.length_pos_iff.1 hc.2
    simp [this]
  · rw [h.2 hm]
    cases hc : b.col n with
    | none => rfl
    | some c =>
      have he : c.rows = [] := by
        by_contra he
        exact hm (List.mem_map.2 ⟨(n, c), (columns_mem b n c).2 ⟨hc, List.length_pos_iff.2 he⟩, rfl⟩)
      simp [he]

theorem empty_list_run [DecidableEq κ] (env : Env G ρ κ δ) (hf : env.Fair) (t : Node G ρ κ δ) (ht : t.nonempty = false)
    (parents : List Nat) (w : World G) (b : Batch ρ κ δ) : ∃ w', run env none t parents w b = some (w', b) := by
  have key : ∀ (i : Nat) (body : Runner G ρ κ δ), (∃ w', body parents w b = some (w', b)) →
      ∃ w', augmentBatch env none i body parents w b = some (w', b) := by
    intro i body ⟨w', h⟩
    by_cases he : isEmpty b = true
    · exact ⟨w, augmentBatch_empty env i body parents w b he⟩
    · by_cases hact : env.activated i = true
      · rw [augmentBatch_nohooks env i hact]
        unfold guarded
        rw [if_neg he, h]
        exact ⟨_, rfl⟩
      · refine ⟨w, ?_⟩
        have hact : env.activated i = false := by simpa using hact
        unfold augmentBatch
        simp only [switchedOff, hact, if_true]
        unfold guarded
        rw [if_pos (hide_all_empty b)]
        simp only [Option.map_some]
        rw [unhide_hide _ b (List.Sublist.refl _)]
  have hd : ∀ (ro : Bool) (g : G), (drawOrder env ro 0 g).1 = [] := by
    intro ro g
    have := drawOrder_perm env hf ro 0 g
    simpa using this
  cases t with
  | prim i body => simp [Node.nonempty] at ht
  | sometimes i d t e => simp [Node.nonempty] at ht
  | seq i ro cs =>
    have hcs : cs = [] := by simpa [Node.nonempty] using ht
    subst hcs
    rw [run, runAll]
    apply key
    unfold seqBody propagationCtx
    simp only [List.length_nil, hd]
    exact ⟨_, rfl⟩
  | someOf i n ro cs =>
    have hcs : cs = [] := by simpa [Node.nonempty] using ht
    subst hcs
    rw [run, runAll]
    apply key
    unfold someOfBody propagationCtx
    simp only [List.length_nil, hd]
    exact ⟨_, rfl⟩

theorem runOpt_acts [DecidableEq κ] (env : Env G ρ κ δ) (hf : env.Fair) (t : Node G ρ κ δ) (T : Row ρ → Row ρ → Prop)
    (hT : Acts (run env none t) T) (w : World G) :
    ∃ T' : Row ρ → Row ρ → Prop, (∀ c, runOpt env none (some t) = some c → Acts c T') ∧
      (runOpt env none (some t) = none → ∀ x y, T' x y ↔ y = x) ∧
      ∀ (b : Batch ρ κ δ), Rect b.nbRows b → ∀ j < b.nbRows, ∀ y, T' (rowAt b j) y → T (rowAt b j) y := by
  by_cases hn : t.nonempty = true
  · refine ⟨T, ?_, ?_, fun _ _ _ _ _ h => h⟩
    · intro c hc
      rw [runOpt, if_pos hn] at hc
      cases hc; exact hT
    · intro hc
      rw [runOpt, if_pos hn] at hc
      cases hc
  · have hn' : t.nonempty = false := by simpa using hn
    refine ⟨fun x y => y = x, ?_, fun _ _ _ => Iff.rfl, ?_⟩
    · intro c hc
      rw [runOpt, if_neg hn] at hc
      cases hc
    · rintro b hb j hj y rfl
      obtain ⟨w', b', hr, hrel⟩ := hT [] w b hb
      obtain ⟨w'', hr'⟩ := empty_list_run env hf t hn' [] w b
      rw [hr] at hr'
      cases hr'
      exact hrel.2.2 j hj

end Imgaug.Meta
