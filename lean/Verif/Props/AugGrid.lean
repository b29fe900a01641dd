import Verif.Spec.AugGrid
import Verif.Proofs.Grid
/-! C139: grids of augmented images. -/
namespace Imgaug.AugGrid.Props
open Imgaug.AugGrid Imgaug.AugGrid.Spec

variable {α : Type}

/-- The place of an image in the grid. -/
def Covers (y1 x1 : Nat) (a : Im α) (y x : Nat) : Prop := y1 ≤ y ∧ y < y1 + a.h ∧ x1 ≤ x ∧ x < x1 + a.w

theorem fold_put (cast : Nat → Nat → α → α) (augs : List (List (Im α))) (cols ch cw : Nat) (look : Nat × Nat × Nat → Im α)
    (l : List (Nat × Nat × Nat)) (hl : ∀ t ∈ l, (augs[t.2.1]?).bind (fun l => l[t.1 * cols + t.2.2]?) = some (look t))
    (hc : ∀ t ∈ l, (look t).c = 1 ∨ (look t).c = 3) (g : Im α) :
    ∃ g', l.foldlM (step cast augs cols ch cw) g = some g' ∧ g'.h = g.h ∧ g'.w = g.w ∧ g'.c = g.c ∧ g'.dt = g.dt ∧
      ∀ y x, ((∃ t ∈ l, Covers (ch * (t.1 * augs.length + t.2.1)) (cw * t.2.2) (look t) y x ∧
          ∀ k, g'.px y x k = cast (look t).dt g.dt (shown (look t) (y - ch * (t.1 * augs.length + t.2.1)) (x - cw * t.2.2) k)) ∨
        ((∀ t ∈ l, ¬ Covers (ch * (t.1 * augs.length + t.2.1)) (cw * t.2.2) (look t) y x) ∧ ∀ k, g'.px y x k = g.px y x k)) := by
  induction l generalizing g with
  | nil => exact ⟨g, rfl, rfl, rfl, rfl, rfl, fun y x => Or.inr ⟨by simp, fun _ => rfl⟩⟩
  | cons t l ih =>
    have hs : step cast augs cols ch cw g t = some ⟨g.h, g.w, g.c, g.dt, fun y x k =>
        if ch * (t.1 * augs.length + t.2.1) ≤ y ∧ y < ch * (t.1 * augs.length + t.2.1) + (look t).h ∧ cw * t.2.2 ≤ x ∧ x < cw * t.2.2 + (look t).w then
        cast (look t).dt g.dt ((look t).px (y - ch * (t.1 * augs.length + t.2.1)) (x - cw * t.2.2) (if (look t).c = 1 then 0 else k)) else g.px y x k⟩ := by
      rw [step, hl t (by simp), Option.bind_some, put, if_pos (hc t (by simp))]
    obtain ⟨g', h1, h2, h3, h4, h5, h6⟩ := ih (fun u hu => hl u (List.mem_cons_of_mem _ hu)) (fun u hu => hc u (List.mem_cons_of_mem _ hu))
      ⟨g.h, g.w, g.c, g.dt, fun y x k =>
        if ch * (t.1 * augs.length + t.2.1) ≤ y ∧ y < ch * (t.1 * augs.length + t.2.1) + (look t).h ∧ cw * t.2.2 ≤ x ∧ x < cw * t.2.2 + (look t).w then
        cast (look t).dt g.dt ((look t).px (y - ch * (t.1 * augs.length + t.2.1)) (x - cw * t.2.2) (if (look t).c = 1 then 0 else k)) else g.px y x k⟩
    refine ⟨g', by rw [List.foldlM_cons, hs]; exact h1, h2, h3, h4, h5, fun y x => ?_⟩
    rcases h6 y x with ⟨u, hu, hcov, hv⟩ | ⟨hn, hv⟩
    · exact Or.inl ⟨u, List.mem_cons_of_mem _ hu, hcov, hv⟩
    · by_cases hcov : Covers (ch * (t.1 * augs.length + t.2.1)) (cw * t.2.2) (look t) y x
      · refine Or.inl ⟨t, by simp, hcov, fun k => ?_⟩
        rw [hv k]
        dsimp only
        unfold Covers at hcov
        rw [if_pos hcov, shown]
        split_ifs <;> rfl
      · refine Or.inr ⟨?_, fun k => ?_⟩
        · intro u hu
          rcases List.mem_cons.1 hu with rfl | hu
          · exact hcov
          · exact hn u hu
        · rw [hv k]
          dsimp only
          unfold Covers at hcov
          rw [if_neg hcov]

theorem mem_order (rows n cols r i c : Nat) : (r, i, c) ∈ order rows n cols ↔ r < rows ∧ i < n ∧ c < cols := by
  simp only [order, List.mem_flatMap, List.mem_range, List.mem_map, Prod.mk.injEq]
  constructor
  · rintro ⟨a, ha, b, hb, d, hd, rfl, rfl, rfl⟩; exact ⟨ha, hb, hd⟩
  · rintro ⟨ha, hb, hd⟩; exact ⟨r, ha, i, hb, c, hd, rfl, rfl, rfl⟩

theorem covers_iff (y1 x1 : Nat) (a : Im α) (y x : Nat) : Covers y1 x1 a y x ↔ ∃ u v, u < a.h ∧ v < a.w ∧ y = y1 + u ∧ x = x1 + v := by
  unfold Covers
  constructor
  · rintro ⟨h1, h2, h3, h4⟩; exact ⟨y - y1, x - x1, by omega, by omega, by omega, by omega⟩
  · rintro ⟨u, v, h1, h2, rfl, rfl⟩; omega

/-- C139: the grid: each row of cells belongs to one image and the rows of the images take turns, as documented: the cell in row `r * n + i` and column `c`
shows result `r * cols + c` of augmenting image `i` of `n` as many times as there are cells for it; cells are as large as the largest result, and
everything else is zero. The grid has three channels, to which images with one channel are extended. -/
theorem grid_shows (aug : List (Im α) → List (Im α)) (cast : Nat → Nat → α → α) (zero : α) (input : Input α) (rows cols : Nat)
    (images : List (Im α)) (hi : toImages input = some images) (hne : images ≠ []) (hr : 0 < rows) (hc : 0 < cols)
    (hlen : ∀ im ∈ images, (aug (List.replicate (rows * cols) im)).length = rows * cols) (result : Nat → Nat → Nat → Im α)
    (hres : ∀ r i c, r < rows → i < images.length → c < cols →
      (images[i]?).bind (fun im => (aug (List.replicate (rows * cols) im))[r * cols + c]?) = some (result r i c))
    (hch : ∀ r i c, r < rows → i < images.length → c < cols → (result r i c).c = 1 ∨ (result r i c).c = 3) :
    ∃ ch cw g, drawGrid aug cast zero input rows cols = some g ∧ IsGrid cast zero rows images.length cols result ch cw g := by
  have hn : 0 < images.length := List.length_pos_of_ne_nil hne
  set augs := images.map (fun i => aug (List.replicate (rows * cols) i)) with haugs
  have hal : augs.length = images.length := by simp [haugs]
  have hlook : ∀ r i c, r < rows → i < images.length → c < cols → (augs[i]?).bind (fun l => l[r * cols + c]?) = some (result r i c) := by
    intro r i c h1 h2 h3
    rw [← hres r i c h1 h2 h3, haugs, List.getElem?_map]
    cases images[i]? <;> rfl
  have hflat : ∀ a, a ∈ augs.flatten ↔ ∃ r i c, r < rows ∧ i < images.length ∧ c < cols ∧ a = result r i c := by
    intro a
    constructor
    · intro ha
      obtain ⟨l, hl, hal'⟩ := List.mem_flatten.1 ha
      obtain ⟨i, hi', rfl⟩ := List.mem_iff_getElem.1 hl
      obtain ⟨j, hj, rfl⟩ := List.mem_iff_getElem.1 hal'
      have hin : i < images.length := by omega
      have hjl : j < rows * cols := by
        have : augs[i] = aug (List.replicate (rows * cols) images[i]) := by simp [haugs]
        rw [this] at hj
        rwa [hlen _ (List.getElem_mem hin)] at hj
      have hjr : j / cols < rows := Nat.div_lt_of_lt_mul (by rwa [mul_comm] at hjl)
      refine ⟨j / cols, i, j % cols, hjr, hin, Nat.mod_lt _ hc, ?_⟩
      have := hlook (j / cols) i (j % cols) hjr hin (Nat.mod_lt _ hc)
      rw [mul_comm, Nat.div_add_mod, List.getElem?_eq_getElem hi', Option.bind_some, List.getElem?_eq_getElem hj, Option.some.injEq] at this
      exact this
    · rintro ⟨r, i, c, h1, h2, h3, rfl⟩
      obtain ⟨l, hl, ha⟩ := Option.bind_eq_some_iff.1 (hlook r i c h1 h2 h3)
      exact List.mem_flatten.2 ⟨l, List.mem_of_getElem? hl, List.mem_of_getElem? ha⟩
  have hmem0 : result 0 0 0 ∈ augs.flatten := (hflat _).2 ⟨0, 0, 0, hr, hn, hc, rfl⟩
  have hfne : augs.flatten ≠ [] := List.ne_nil_of_mem hmem0
  have hgreat : ∀ f : Im α → Nat, IsGreatest {v | ∃ r i c, r < rows ∧ i < images.length ∧ c < cols ∧ v = f (result r i c)} ((augs.flatten.map f).foldl max 0) := by
    intro f
    constructor
    · obtain ⟨a, ha, hv⟩ := List.mem_map.1 (Imgaug.Grid.foldl_max_mem (augs.flatten.map f) (by simpa using hfne))
      obtain ⟨r, i, c, h1, h2, h3, rfl⟩ := (hflat a).1 ha
      exact ⟨r, i, c, h1, h2, h3, hv.symm⟩
    · rintro v ⟨r, i, c, h1, h2, h3, rfl⟩
      exact (Imgaug.Grid.foldl_max (augs.flatten.map f) 0).1.2 _ (List.mem_map_of_mem ((hflat _).2 ⟨r, i, c, h1, h2, h3, rfl⟩))
  have hfirst : (augs.head?).bind (fun l => l.head?) = some (result 0 0 0) := by
    have := hlook 0 0 0 hr hn hc
    simpa [List.head?_eq_getElem?] using this
  set ch := (augs.flatten.map (fun a => a.h)).foldl max 0 with hchd
  set cw := (augs.flatten.map (fun a => a.w)).foldl max 0 with hcwd
  obtain ⟨g, h1, h2, h3, h4, h5, h6⟩ := fold_put cast augs cols ch cw (fun t => result t.1 t.2.1 t.2.2) (order rows images.length cols)
    (fun t ht => by
      obtain ⟨r, i, c⟩ := t
      obtain ⟨a, b, d⟩ := (mem_order rows images.length cols r i c).1 ht
      exact hlook r i c a b d)
    (fun t ht => by
      obtain ⟨r, i, c⟩ := t
      obtain ⟨a, b, d⟩ := (mem_order rows images.length cols r i c).1 ht
      exact hch r i c a b d)
    ⟨ch * (rows * images.length), cw * cols, 3, (result 0 0 0).dt, fun _ _ _ => zero⟩
  refine ⟨ch, cw, g, ?_, ?_⟩
  · unfold drawGrid
    rw [hi, Option.bind_some]
    have hf' : augs.flatten.isEmpty = false := by simpa using hfne
    change (if augs.flatten.isEmpty = true then none else ((augs.head?).bind (fun l => l.head?)).bind _) = _
    rw [if_neg (by rw [hf']; simp), hfirst, Option.bind_some]
    exact h1
  · rw [hal] at h6
    have hhi := (hgreat (fun a => a.h)).2
    have hwi := (hgreat (fun a => a.w)).2
    refine ⟨by rw [h2]; exact mul_comm _ _, by rw [h3]; exact mul_comm _ _, h4, h5, hgreat (fun a => a.h), hgreat (fun a => a.w), ?_, ?_⟩
    · intro r i c hr' hi' hc' y x k hy hx
      have hyc : y < ch := lt_of_lt_of_le hy (hhi ⟨r, i, c, hr', hi', hc', rfl⟩)
      have hxc : x < cw := lt_of_lt_of_le hx (hwi ⟨r, i, c, hr', hi', hc', rfl⟩)
      rcases h6 ((r * images.length + i) * ch + y) (c * cw + x) with ⟨⟨r', i', c'⟩, ht, hcov, hv⟩ | ⟨hno, _⟩
      · obtain ⟨a, b, d⟩ := (mem_order rows images.length cols r' i' c').1 ht
        obtain ⟨u, v, hu, hv', e1, e2⟩ := (covers_iff _ _ _ _ _).1 hcov
        have huc : u < ch := lt_of_lt_of_le hu (hhi ⟨r', i', c', a, b, d, rfl⟩)
        have hvc : v < cw := lt_of_lt_of_le hv' (hwi ⟨r', i', c', a, b, d, rfl⟩)
        dsimp only at e1 e2 hv
        obtain ⟨p1, p2⟩ := Imgaug.Grid.cell_eq ch _ _ _ _ hyc huc (e1.trans (by rw [mul_comm ch]))
        obtain ⟨q1, q2⟩ := Imgaug.Grid.cell_eq cw _ _ _ _ hxc hvc (e2.trans (by rw [mul_comm cw]))
        obtain ⟨s1, s2⟩ := Imgaug.Grid.cell_eq images.length _ _ _ _ hi' b p1
        subst s1 s2 q1
        rw [hv k, h5, mul_comm ch, mul_comm cw, Nat.add_sub_cancel_left, Nat.add_sub_cancel_left]
      · exact absurd ((covers_iff _ _ _ _ _).2 ⟨y, x, hy, hx, by dsimp only; rw [mul_comm], by dsimp only; rw [mul_comm]⟩)
          (hno (r, i, c) ((mem_order rows images.length cols r i c).2 ⟨hr', hi', hc'⟩))
    · intro Y X k hno
      rcases h6 Y X with ⟨⟨r', i', c'⟩, ht, hcov, _⟩ | ⟨_, hv⟩
      · obtain ⟨a, b, d⟩ := (mem_order rows images.length cols r' i' c').1 ht
        obtain ⟨u, v, hu, hv', e1, e2⟩ := (covers_iff _ _ _ _ _).1 hcov
        dsimp only at e1 e2
        exact absurd (by rw [e1, e2, mul_comm ch, mul_comm cw]) (hno r' i' c' a b d u v hu hv')
      · exact hv k

/-- An image with one value. -/
def demoIm (h w c v : Nat) : Im Nat := ⟨h, w, c, 1, fun _ _ _ => v⟩

/-- An augmenter that adds the index of the image in the list. -/
def demoAug (l : List (Im Nat)) : List (Im Nat) := l.mapIdx (fun j a => { a with px := fun y x k => a.px y x k + j })

/-- Two images of different sizes, one without channel axis. -/
def demoInput : Input Nat := .list [⟨[1, 2], 1, fun _ => 10⟩, ⟨[2, 1, 3], 1, fun p => 20 + 100 * p.getD 2 0⟩]

example : (drawGrid demoAug (fun _ _ v => v) 0 demoInput 2 2).map (fun g => [g.h, g.w, g.c]) = some [8, 4, 3] ∧
    (drawGrid demoAug (fun _ _ v => v) 0 demoInput 2 2).map (fun g => (List.range 8).map (fun y => (List.range 4).map (fun x => g.px y x 2))) =
    some [[10, 10, 11, 11], [0, 0, 0, 0], [220, 0, 221, 0], [220, 0, 221, 0], [12, 12, 13, 13], [0, 0, 0, 0], [222, 0, 223, 0], [222, 0, 223, 0]] := by
  decide +kernel

/-- C139: exactly the following is rejected, for augmenters that return as many images as they get: something else than arrays and lists, numbers of axes
other than two and three (four for an array of images), no images, no rows or columns, and results with other numbers of channels than one and three. -/
theorem grid_rejects (aug : List (Im α) → List (Im α)) (cast : Nat → Nat → α → α) (zero : α) (input : Input α) (rows cols : Nat)
    (hlen : ∀ l, (aug l).length = l.length) :
    drawGrid aug cast zero input rows cols = none ↔ toImages input = none ∨ toImages input = some [] ∨ rows = 0 ∨ cols = 0 ∨
      ∃ images, toImages input = some images ∧ ∃ im ∈ images, ∃ a ∈ aug (List.replicate (rows * cols) im), a.c ≠ 1 ∧ a.c ≠ 3 := by
  have hfail : ∀ (augs : List (List (Im α))) (ch cw : Nat) (l : List (Nat × Nat × Nat)) (g : Im α),
      (∃ t ∈ l, ∃ a, (augs[t.2.1]?).bind (fun l => l[t.1 * cols + t.2.2]?) = some a ∧ a.c ≠ 1 ∧ a.c ≠ 3) →
      l.foldlM (step cast augs cols ch cw) g = none := by
    intro augs ch cw l
    induction l with
    | nil => rintro g ⟨t, ht, _⟩; simp at ht
    | cons u l ih =>
      rintro g ⟨t, ht, a, h1, h2⟩
      rw [List.foldlM_cons]
      rcases List.mem_cons.1 ht with rfl | ht
      · rw [show step cast augs cols ch cw g t = none by
          rw [step, h1, Option.bind_some, put, if_neg (by rintro (h | h); exacts [h2.1 h, h2.2 h])]]
        rfl
      · cases step cast augs cols ch cw g u with
        | none => rfl
        | some g' => exact ih g' ⟨t, ht, a, h1, h2⟩
  cases hi : toImages input with
  | none => simp [drawGrid, hi]
  | some images =>
    by_cases hne : images = []
    · subst hne; simp [drawGrid, hi]
    by_cases h0 : rows = 0 ∨ cols = 0
    · have hm : rows * cols = 0 := by rcases h0 with rfl | rfl <;> simp
      have hnil : ∀ im : Im α, aug (List.replicate (rows * cols) im) = [] := by
        intro im; rw [← List.length_eq_zero_iff, hlen]; simpa using hm
      have : drawGrid aug cast zero input rows cols = none := by
        unfold drawGrid
        rw [hi, Option.bind_some]
        dsimp only
        rw [if_pos]
        simp [hnil]
      rw [this]
      simp only [true_iff]
      exact Or.inr (Or.inr (h0.imp id Or.inl))
    · have hr : 0 < rows := Nat.pos_of_ne_zero (fun h => h0 (Or.inl h))
      have hc : 0 < cols := Nat.pos_of_ne_zero (fun h => h0 (Or.inr h))
      have hn : 0 < images.length := List.length_pos_of_ne_nil hne
      have hlen' : ∀ im ∈ images, (aug (List.replicate (rows * cols) im)).length = rows * cols := fun im _ => by rw [hlen]; simp
      have hlt : ∀ r c, r < rows → c < cols → r * cols + c < rows * cols := by
        intro r c h1 h2
        calc r * cols + c < r * cols + cols := by omega
          _ = (r + 1) * cols := by ring
          _ ≤ rows * cols := Nat.mul_le_mul_right _ h1
      have hsome : ∀ r i c, r < rows → i < images.length → c < cols →
          ((images[i]?).bind (fun im => (aug (List.replicate (rows * cols) im))[r * cols + c]?)).isSome := by
        intro r i c h1 h2 h3
        rw [List.getElem?_eq_getElem h2, Option.bind_some, List.getElem?_eq_getElem (by rw [hlen' _ (List.getElem_mem h2)]; exact hlt r c h1 h3)]
        rfl
      by_cases hbad : ∃ im ∈ images, ∃ a ∈ aug (List.replicate (rows * cols) im), a.c ≠ 1 ∧ a.c ≠ 3
      · have : drawGrid aug cast zero input rows cols = none := by
          obtain ⟨im, him, a, ha, h1⟩ := hbad
          obtain ⟨i, hi', rfl⟩ := List.mem_iff_getElem.1 him
          obtain ⟨j, hj, rfl⟩ := List.mem_iff_getElem.1 ha
          have hj' : j < rows * cols := by rwa [hlen' _ (List.getElem_mem hi')] at hj
          unfold drawGrid
          rw [hi, Option.bind_some]
          dsimp only
          split_ifs with hf
          · rfl
          · rw [Option.bind_eq_none_iff]
            intro first _
            refine hfail _ _ _ _ _ ⟨(j / cols, i, j % cols), (mem_order _ _ _ _ _ _).2 ⟨Nat.div_lt_of_lt_mul (by rwa [mul_comm] at hj'), hi',
              Nat.mod_lt _ hc⟩, (aug (List.replicate (rows * cols) images[i]))[j], ?_, h1⟩
            dsimp only
            rw [mul_comm (j / cols), Nat.div_add_mod, List.getElem?_map, List.getElem?_eq_getElem hi', Option.map_some, Option.bind_some,
              List.getElem?_eq_getElem hj]
        rw [this]
        simp only [true_iff]
        exact Or.inr (Or.inr (Or.inr (Or.inr ⟨images, rfl, hbad⟩)))
      · let d : Im α := ⟨0, 0, 1, 0, fun _ _ _ => zero⟩
        obtain ⟨_, _, g, hg, _⟩ := grid_shows aug cast zero input rows cols images hi hne hr hc hlen'
          (fun r i c => ((images[i]?).bind (fun im => (aug (List.replicate (rows * cols) im))[r * cols + c]?)).getD d)
          (fun r i c h1 h2 h3 => by
            obtain ⟨v, hv⟩ := Option.isSome_iff_exists.1 (hsome r i c h1 h2 h3)
            rw [hv]; rfl)
          (fun r i c h1 h2 h3 => by
            obtain ⟨v, hv⟩ := Option.isSome_iff_exists.1 (hsome r i c h1 h2 h3)
            rw [hv, Option.getD_some]
            obtain ⟨im, him, hm⟩ := Option.bind_eq_some_iff.1 hv
            by_contra hcon
            exact hbad ⟨im, List.mem_of_getElem? him, v, List.mem_of_getElem? hm, not_or.1 hcon⟩)
        rw [hg]
        simp only [reduceCtorEq, Option.some.injEq, false_iff]
        rintro (h | h | h | h | ⟨im, rfl, h⟩)
        · exact h
        · exact hne h
        · omega
        · omega
        · exact hbad h

example : (drawGrid demoAug (fun _ _ v => v) 0 demoInput 0 2).isNone = true ∧ (drawGrid demoAug (fun _ _ v => v) 0 (.list []) 1 1).isNone = true ∧
    (drawGrid demoAug (fun _ _ v => v) 0 (.arr ⟨[2, 2, 4], 1, fun _ => 0⟩) 1 1).isNone = true := by decide +kernel

/-- C139: which images are taken: an array with four axes is a list of images, one with two or three axes is one image; a list is a list of images with two or
three axes; two axes stand for one channel. -/
theorem grid_images (a : Nd α) (l : List (Nd α)) :
    (∀ n h w c, a.shape = [n, h, w, c] → ∃ images, toImages (.arr a) = some images ∧ images.length = n ∧
      ∀ i im, images[i]? = some im → (im.h, im.w, im.c, im.dt) = (h, w, c, a.dt) ∧ ∀ y x k, im.px y x k = a.px [i, y, x, k]) ∧
    (a.shape.length = 2 ∨ a.shape.length = 3 → ∃ im, toImages (.arr a) = some [im] ∧ to3 a = some im) ∧
    (a.shape.length < 2 ∨ 4 < a.shape.length → toImages (.arr a) = none) ∧
    ((∀ b ∈ l, b.shape.length = 2 ∨ b.shape.length = 3) ↔ toImages (.list l) ≠ none) := by
  have hto3 : ∀ b : Nd α, (to3 b).isSome = true ↔ b.shape.length = 2 ∨ b.shape.length = 3 := by
    intro b
    unfold to3
    rcases hs : b.shape with _ | ⟨x, _ | ⟨y, _ | ⟨z, _ | ⟨u, t⟩⟩⟩⟩ <;> simp
  refine ⟨?_, ?_, ?_, ?_⟩
  · intro n h w c hs
    refine ⟨_, by simp only [toImages, hs]; rfl, by simp, fun i im him => ?_⟩
    rw [List.getElem?_map] at him
    obtain ⟨j, hj, rfl⟩ := Option.map_eq_some_iff.1 him
    obtain ⟨hlt, hjj⟩ := List.getElem?_eq_some_iff.1 hj
    rw [List.getElem_range] at hjj
    subst hjj
    exact ⟨rfl, fun _ _ _ => rfl⟩
  · intro hs
    obtain ⟨im, him⟩ := Option.isSome_iff_exists.1 ((hto3 a).2 hs)
    refine ⟨im, ?_, him⟩
    unfold toImages
    dsimp only
    split
    · rename_i heq; rw [heq] at hs; simp at hs
    · rw [him]; rfl
  · intro hs
    unfold toImages
    dsimp only
    split
    · rename_i heq; rw [heq] at hs; simp at hs
    · rw [Option.map_eq_none_iff, ← Option.not_isSome_iff_eq_none, hto3]; omega
  · simp only [toImages]
    induction l with
    | nil => simp
    | cons b l ih =>
      rw [List.mapM_cons]
      have hb := hto3 b
      cases h3 : to3 b with
      | none =>
        rw [h3] at hb
        simp only [Option.isSome_none, Bool.false_eq_true, false_iff] at hb
        simp [hb]
      | some im =>
        rw [h3] at hb
        simp only [Option.isSome_some, true_iff] at hb
        simp only [List.mem_cons, forall_eq_or_imp, hb, true_and, ih]
        cases List.mapM to3 l <;> simp

/-- C139 is false as to the list that is passed: images with two axes in it are replaced. -/
theorem list_changed (a : Nd α) (h w : Nat) (hs : a.shape = [h, w]) : ∃ b, passedAfter [a] = [b] ∧ b.shape = [h, w, 1] := by
  simp [passedAfter, hs]

example : (passedAfter [(⟨[1, 2], 1, fun _ => 10⟩ : Nd Nat)]).map (fun a => a.shape) = [[1, 2, 1]] := by decide +kernel

/-- C139 (partial): the items of the list that is passed stay as they are if they have three axes. Missing: items with two axes. -/
theorem list_kept_partial (l : List (Nd α)) (h : ∀ a ∈ l, a.shape.length = 3) : passedAfter l = l := by
  unfold passedAfter
  conv_rhs => rw [← List.map_id l]
  refine List.map_congr_left (fun a ha => ?_)
  have := h a ha
  split
  · rename_i heq; rw [heq] at this; simp at this
  · rfl

example : ∀ a ∈ [(⟨[2, 1, 3], 1, fun _ => 0⟩ : Nd Nat)], a.shape.length = 3 := by simp

/-- C139: the same image, passed twice, is shown with the same results. -/
theorem same_image (aug : List (Im α) → List (Im α)) (cast : Nat → Nat → α → α) (zero : α) (input : Input α) (rows cols : Nat)
    (images : List (Im α)) (hi : toImages input = some images) (hlen : ∀ l, (aug l).length = l.length) (g : Im α)
    (hg : drawGrid aug cast zero input rows cols = some g) (i j : Nat) (him : i < images.length) (hjm : j < images.length) (heq : images[i] = images[j])
    (r c : Nat) (hr : r < rows) (hc : c < cols) :
    ∃ ch cw a, g.h = rows * images.length * ch ∧ g.w = cols * cw ∧ (aug (List.replicate (rows * cols) images[i]))[r * cols + c]? = some a ∧
      ∀ y x k, y < a.h → x < a.w → g.px ((r * images.length + i) * ch + y) (c * cw + x) k = g.px ((r * images.length + j) * ch + y) (c * cw + x) k := by
  have hrej := fun h => Option.some_ne_none g (hg.symm.trans ((grid_rejects aug cast zero input rows cols hlen).2 h))
  have hlt : ∀ r c, r < rows → c < cols → r * cols + c < rows * cols := by
    intro r c h1 h2
    calc r * cols + c < r * cols + cols := by omega
      _ = (r + 1) * cols := by ring
      _ ≤ rows * cols := Nat.mul_le_mul_right _ h1
  let d : Im α := ⟨0, 0, 1, 0, fun _ _ _ => zero⟩
  have hres : ∀ r i c, r < rows → i < images.length → c < cols →
      (images[i]?).bind (fun im => (aug (List.replicate (rows * cols) im))[r * cols + c]?) =
      some (((images[i]?).bind (fun im => (aug (List.replicate (rows * cols) im))[r * cols + c]?)).getD d) := by
    intro r i c h1 h2 h3
    rw [List.getElem?_eq_getElem h2, Option.bind_some, List.getElem?_eq_getElem (by rw [hlen, List.length_replicate]; exact hlt r c h1 h3)]
    rfl
  obtain ⟨ch, cw, g', hg', hG⟩ := grid_shows aug cast zero input rows cols images hi (by rintro rfl; simp at him) (by omega) (by omega)
    (fun im _ => by rw [hlen]; simp) _ hres
    (fun r i c h1 h2 h3 => by
      obtain ⟨im, him', hm⟩ := Option.bind_eq_some_iff.1 (hres r i c h1 h2 h3)
      by_contra hcon
      exact hrej (Or.inr (Or.inr (Or.inr (Or.inr ⟨images, hi, im, List.mem_of_getElem? him', _, List.mem_of_getElem? hm, not_or.1 hcon⟩)))))
  rw [hg, Option.some.injEq] at hg'
  subst hg'
  have e1 := hres r i c hr him hc
  have hij : (images[i]?) = images[j]? := by rw [List.getElem?_eq_getElem him, List.getElem?_eq_getElem hjm, heq]
  refine ⟨ch, cw, _, hG.h, hG.w, by rw [← e1, List.getElem?_eq_getElem him, Option.bind_some], fun y x k hy hx => ?_⟩
  have p := hG.image r i c hr him hc y x k hy hx
  have q := hG.image r j c hr hjm hc y x k (by rw [← hij]; exact hy) (by rw [← hij]; exact hx)
  rw [p, q, hij]

end Imgaug.AugGrid.Props
