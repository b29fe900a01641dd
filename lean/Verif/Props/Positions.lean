import Verif.Proofs.Positions
/-! C101: positions, and padding and cropping whole batches to a fixed size. -/
namespace Imgaug.Positions
open Imgaug Imgaug.Size
variable {α : Type}

/-- C101: exactly the documented positions are accepted. -/
theorem positions_accepted (pos : Position) : handlePosition pos ≠ none ↔ pos.Documented := accepts

/-- C101: every row gets a position, and it is one that the argument stands for; x is drawn before y. -/
theorem positions_allowed {σ : Type} (P : Values) (S : Sampler σ) (hS : Ok P S) (pos : Position) (h : Handled)
    (hp : handlePosition pos = some h) (n : Nat) (g : σ) :
    (drawPositions S h n g).length = n ∧ (∀ p ∈ drawPositions S h n g, pos.Allows P p) ∧ (Unit01 P → ∀ p ∈ drawPositions S h n g,
      (0 ≤ p.1 ∧ p.1 ≤ 1) ∧ 0 ≤ p.2 ∧ p.2 ≤ 1) := by
  obtain ⟨h1, h2⟩ := drawn hS hp n g
  exact ⟨h1, h2, fun hP p hpm => in_unit hP (accepts.mp (by rw [hp]; simp)) (h2 p hpm)⟩

/-- C101: size and position determine the amounts, so that all columns of a row are padded or cropped alike. -/
theorem amounts_determined (n : Nat) (d : Option Int) (p : ℚ) (a b a' b' : Int) :
    (PadsAt n d p a b → PadsAt n d p a' b' → a = a' ∧ b = b') ∧ (CropsAt n d p a b → CropsAt n d p a' b' → a = a' ∧ b = b') := by
  constructor
  · rintro ⟨_, _, e, h1, h2⟩ ⟨_, _, e', h1', h2'⟩
    exact share_unique (n := max (n : Int) (d.getD n) - n) (by omega) (by omega) h1 h2 h1' h2'
  · rintro ⟨_, _, e, h1, h2⟩ ⟨_, _, e', h1', h2'⟩
    exact share_unique (n := n - min (n : Int) (d.getD n)) (by omega) (by omega) h1 h2 h1' h2'

/-- C101: position 0 puts everything at the start (left, top), position 1 at the end (right, bottom), and position 1/2 distributes evenly,
with an odd pixel at the end. -/
theorem amounts_named (n : Nat) (d : Option Int) (a b : Int) :
    (PadsAt n d 0 a b ∨ CropsAt n d 0 a b → b = 0) ∧ (PadsAt n d 1 a b ∨ CropsAt n d 1 a b → a = 0) ∧
    (PadsAt n d (1 / 2) a b ∨ CropsAt n d (1 / 2) a b → b = a ∨ b = a + 1) := by
  refine ⟨?_, ?_, ?_⟩
  · intro h
    have key : 0 ≤ b ∧ (1 - 0) * ((a + b : Int) : ℚ) < a + 1 := by
      rcases h with ⟨_, h1, _, _, h2⟩ | ⟨_, h1, _, _, h2⟩ <;> exact ⟨h1, h2⟩
    obtain ⟨h1, h2⟩ := key
    push_cast at h2
    have : (b : ℚ) < 1 := by linarith
    have : b < 1 := by exact_mod_cast this
    omega
  · intro h
    have key : 0 ≤ a ∧ (a : ℚ) ≤ (1 - 1) * ((a + b : Int) : ℚ) := by
      rcases h with ⟨h1, _, _, h2, _⟩ | ⟨h1, _, _, h2, _⟩ <;> exact ⟨h1, h2⟩
    obtain ⟨h1, h2⟩ := key
    have : (a : ℚ) ≤ 0 := by linarith
    have : a ≤ 0 := by exact_mod_cast this
    omega
  · intro h
    have key : (a : ℚ) ≤ (1 - 1 / 2) * ((a + b : Int) : ℚ) ∧ (1 - 1 / 2) * ((a + b : Int) : ℚ) < a + 1 := by
      rcases h with ⟨_, _, _, h1, h2⟩ | ⟨_, _, _, h1, h2⟩ <;> exact ⟨h1, h2⟩
    obtain ⟨h1, h2⟩ := key
    push_cast at h1 h2
    have l1 : (a : ℚ) ≤ b := by linarith
    have l2 : (b : ℚ) < a + 2 := by linarith
    have l1 : a ≤ b := by exact_mod_cast l1
    have l2 : b < a + 2 := by exact_mod_cast l2
    omega

/-- C101: `PadToFixedSize` pads each row of a batch at its own position, the same for all columns: images show their old content,
keypoints are moved with it, and maps of the size of the image are padded as the image is. -/
theorem pad_rows {σ : Type} (P : Values) (hP : Unit01 P) (S : Sampler σ) (hS : Ok P S) (pos : Position) (h : Handled)
    (hp : handlePosition pos = some h) (border : Nat → Nat → α) (height width : Option Int) (n : Nat) (b : Batch α) (g : σ)
    (hi' : ∀ c, b.images = some c → c.length = n) (hm : ∀ c, b.maps = some c → c.length = n) (hk : ∀ c, b.keypoints = some c → c.length = n)
    (hms : ∀ c, b.maps = some c → ∀ m ∈ c, 1 ≤ m.shape.h ∧ 1 ≤ m.shape.w ∧ 1 ≤ m.arr.h ∧ 1 ≤ m.arr.w) :
    ∃ (r : Batch α) (positions : List (ℚ × ℚ)), padToFixedSize border S h height width n b g = some r ∧ positions.length = n ∧ (∀ p ∈ positions, pos.Allows P p) ∧
      (b.images = none → r.images = none) ∧ (b.maps = none → r.maps = none) ∧ (b.keypoints = none → r.keypoints = none) ∧
      (∀ c, b.images = some c → ∃ d, r.images = some d ∧ d.length = n ∧
        ∀ (i : Nat) a p, c[i]? = some a → positions[i]? = some p → ∃ (a' : Img α) (t : Trbl), d[i]? = some a' ∧ PadsAt a.h height p.2 t.top t.bottom ∧
          PadsAt a.w width p.1 t.left t.right ∧ Padded a a' t) ∧
      (∀ c, b.maps = some c → ∃ d, r.maps = some d ∧ d.length = n ∧
        ∀ (i : Nat) m p, c[i]? = some m → positions[i]? = some p → ∃ (m' : Map α) (t : Trbl), d[i]? = some m' ∧ PadsAt m.shape.h height p.2 t.top t.bottom ∧
          PadsAt m.shape.w width p.1 t.left t.right ∧ (m'.shape.h : Int) = m.shape.h + t.top + t.bottom ∧
          (m'.shape.w : Int) = m.shape.w + t.left + t.right ∧ (m.shape = ⟨m.arr.h, m.arr.w⟩ → Padded m.arr m'.arr t)) ∧
      (∀ c, b.keypoints = some c → ∃ d, r.keypoints = some d ∧ d.length = n ∧
        ∀ (i : Nat) k p, c[i]? = some k → positions[i]? = some p → ∃ (k' : KPsOnImage) (t : Trbl), d[i]? = some k' ∧ PadsAt k.shape.h height p.2 t.top t.bottom ∧
          PadsAt k.shape.w width p.1 t.left t.right ∧ (k'.shape.h : Int) = k.shape.h + t.top + t.bottom ∧
          (k'.shape.w : Int) = k.shape.w + t.left + t.right ∧ Moved k k' t.left t.top) := by
  obtain ⟨hl, hall, hunit⟩ := positions_allowed P S hS pos h hp n g
  have hunit := hunit hP
  have nn : ∀ (s : Shape) p, p ∈ drawPositions S h n g → NonNeg (fixedPaddings s height width p.1 p.2) ∧
      PadsAt s.h height p.2 (fixedPaddings s height width p.1 p.2).top (fixedPaddings s height width p.1 p.2).bottom ∧
      PadsAt s.w width p.1 (fixedPaddings s height width p.1 p.2).left (fixedPaddings s height width p.1 p.2).right := by
    intro s p hpm
    obtain ⟨u1, u2⟩ := hunit p hpm
    obtain ⟨a1, a2⟩ := paddings_at s height width p.1 p.2 u1 u2
    exact ⟨⟨a1.1, a2.2.1, a1.2.1, a2.1⟩, a1, a2⟩
  obtain ⟨ri, ei, ei0, ei1⟩ := column_rows (fun (a : Img α) p => padFixedImg border a height width p.1 p.2) b.images (drawPositions S h n g)
    (fun c hc => by rw [hi' c hc, hl]) (fun c _ a _ p hpm => by
      obtain ⟨a', e, -⟩ := padded_img border a _ (nn ⟨a.h, a.w⟩ p hpm).1
      rw [padFixedImg, e]; simp)
  obtain ⟨rm, em, em0, em1⟩ := column_rows (fun (m : Map α) p => padFixedMap border m height width p.1 p.2) b.maps (drawPositions S h n g)
    (fun c hc => by rw [hm c hc, hl]) (fun c hc m hmc p hpm => by
      obtain ⟨s1, s2, s3, s4⟩ := hms c hc m hmc
      obtain ⟨a', e, -⟩ := padded_map border m _ (nn m.shape p hpm).1 s1 s2 s3 s4
      rw [padFixedMap, e]; simp)
  obtain ⟨rk, ek, ek0, ek1⟩ := column_rows (fun (k : KPsOnImage) p => padFixedKps k height width p.1 p.2) b.keypoints (drawPositions S h n g)
    (fun c hc => by rw [hk c hc, hl]) (fun c _ k _ p hpm => by
      obtain ⟨a', e, -⟩ := padded_kps k _ (nn k.shape p hpm).1
      rw [padFixedKps, e]; simp)
  refine ⟨⟨ri, rm, rk⟩, drawPositions S h n g, by simp [padToFixedSize, columns, ei, em, ek], hl, hall, ei0, em0, ek0, ?_, ?_, ?_⟩
  · intro c hc
    obtain ⟨d, e1, e2, e3⟩ := ei1 c hc
    refine ⟨d, e1, by rw [e2, hi' c hc], ?_⟩
    intro i a p ha hpi
    obtain ⟨a', f1, f2⟩ := e3 i a p ha hpi
    obtain ⟨n1, n2, n3⟩ := nn ⟨a.h, a.w⟩ p (List.mem_of_getElem? hpi)
    obtain ⟨a'', g1, g2⟩ := padded_img border a _ n1
    rw [padFixedImg, g1, Option.some.injEq] at f1
    subst f1
    exact ⟨_, _, f2, n2, n3, g2⟩
  · intro c hc
    obtain ⟨d, e1, e2, e3⟩ := em1 c hc
    refine ⟨d, e1, by rw [e2, hm c hc], ?_⟩
    intro i m p ha hpi
    obtain ⟨m', f1, f2⟩ := e3 i m p ha hpi
    obtain ⟨n1, n2, n3⟩ := nn m.shape p (List.mem_of_getElem? hpi)
    obtain ⟨s1, s2, s3, s4⟩ := hms c hc m (List.mem_of_getElem? ha)
    obtain ⟨m'', g1, g2⟩ := padded_map border m _ n1 s1 s2 s3 s4
    rw [padFixedMap, g1, Option.some.injEq] at f1
    subst f1
    exact ⟨_, _, f2, n2, n3, g2⟩
  · intro c hc
    obtain ⟨d, e1, e2, e3⟩ := ek1 c hc
    refine ⟨d, e1, by rw [e2, hk c hc], ?_⟩
    intro i k p ha hpi
    obtain ⟨k', f1, f2⟩ := e3 i k p ha hpi
    obtain ⟨n1, n2, n3⟩ := nn k.shape p (List.mem_of_getElem? hpi)
    obtain ⟨k'', g1, g2, g3, g4⟩ := padded_kps k _ n1
    rw [padFixedKps, g1, Option.some.injEq] at f1
    subst f1
    exact ⟨_, _, f2, n2, n3, g3, g4, g2⟩

/-- C101: `CropToFixedSize` crops each row of a batch at its own position, the same for all columns: images show the remaining content,
keypoints are moved with it, and maps of the size of the image are cropped as the image is. -/
theorem crop_rows {σ : Type} (P : Values) (hP : Unit01 P) (S : Sampler σ) (hS : Ok P S) (pos : Position) (h : Handled)
    (hp : handlePosition pos = some h) (border : Nat → Nat → α) (height width : Option Int) (hheight : ∀ z, height = some z → 1 ≤ z)
    (hwidth : ∀ z, width = some z → 1 ≤ z) (n : Nat) (b : Batch α) (g : σ)
    (hi' : ∀ c, b.images = some c → c.length = n) (hm : ∀ c, b.maps = some c → c.length = n) (hk : ∀ c, b.keypoints = some c → c.length = n)
    (his : ∀ c, b.images = some c → ∀ a ∈ c, 1 ≤ a.h ∧ 1 ≤ a.w)
    (hms : ∀ c, b.maps = some c → ∀ m ∈ c, 1 ≤ m.shape.h ∧ 1 ≤ m.shape.w ∧ 1 ≤ m.arr.h ∧ 1 ≤ m.arr.w)
    (hks : ∀ c, b.keypoints = some c → ∀ k ∈ c, 1 ≤ k.shape.h ∧ 1 ≤ k.shape.w) :
    ∃ (r : Batch α) (positions : List (ℚ × ℚ)), cropToFixedSize border S h height width n b g = some r ∧ positions.length = n ∧ (∀ p ∈ positions, pos.Allows P p) ∧
      (b.images = none → r.images = none) ∧ (b.maps = none → r.maps = none) ∧ (b.keypoints = none → r.keypoints = none) ∧
      (∀ c, b.images = some c → ∃ d, r.images = some d ∧ d.length = n ∧
        ∀ (i : Nat) a p, c[i]? = some a → positions[i]? = some p → ∃ (a' : Img α) (t : Trbl), d[i]? = some a' ∧ CropsAt a.h height p.2 t.top t.bottom ∧
          CropsAt a.w width p.1 t.left t.right ∧ Cropped a a' t) ∧
      (∀ c, b.maps = some c → ∃ d, r.maps = some d ∧ d.length = n ∧
        ∀ (i : Nat) m p, c[i]? = some m → positions[i]? = some p → ∃ (m' : Map α) (t : Trbl), d[i]? = some m' ∧ CropsAt m.shape.h height p.2 t.top t.bottom ∧
          CropsAt m.shape.w width p.1 t.left t.right ∧ (m'.shape.h : Int) = m.shape.h - t.top - t.bottom ∧
          (m'.shape.w : Int) = m.shape.w - t.left - t.right ∧ (m.shape = ⟨m.arr.h, m.arr.w⟩ → Cropped m.arr m'.arr t)) ∧
      (∀ c, b.keypoints = some c → ∃ d, r.keypoints = some d ∧ d.length = n ∧
        ∀ (i : Nat) k p, c[i]? = some k → positions[i]? = some p → ∃ (k' : KPsOnImage) (t : Trbl), d[i]? = some k' ∧ CropsAt k.shape.h height p.2 t.top t.bottom ∧
          CropsAt k.shape.w width p.1 t.left t.right ∧ (k'.shape.h : Int) = k.shape.h - t.top - t.bottom ∧
          (k'.shape.w : Int) = k.shape.w - t.left - t.right ∧ Moved k k' (-t.left) (-t.top)) := by
  obtain ⟨hl, hall, hunit⟩ := positions_allowed P S hS pos h hp n g
  have hunit := hunit hP
  have nn : ∀ (s : Shape) p, 1 ≤ s.h → 1 ≤ s.w → p ∈ drawPositions S h n g → NonNeg (fixedCroppings s height width (1 - p.2) (1 - p.1)) ∧
      CropsAt s.h height p.2 (fixedCroppings s height width (1 - p.2) (1 - p.1)).top (fixedCroppings s height width (1 - p.2) (1 - p.1)).bottom ∧
      CropsAt s.w width p.1 (fixedCroppings s height width (1 - p.2) (1 - p.1)).left (fixedCroppings s height width (1 - p.2) (1 - p.1)).right ∧
      (fixedCroppings s height width (1 - p.2) (1 - p.1)).top + (fixedCroppings s height width (1 - p.2) (1 - p.1)).bottom < s.h ∧
      (fixedCroppings s height width (1 - p.2) (1 - p.1)).left + (fixedCroppings s height width (1 - p.2) (1 - p.1)).right < s.w := by
    intro s p hs1 hs2 hpm
    obtain ⟨u1, u2⟩ := hunit p hpm
    obtain ⟨a1, a2⟩ := croppings_at s height width p.1 p.2 u1 u2
    have m1 : 1 ≤ height.getD s.h := by
      cases height with
      | none => simp only [Option.getD_none]; omega
      | some z => exact hheight z rfl
    have m2 : 1 ≤ width.getD s.w := by
      cases width with
      | none => simp only [Option.getD_none]; omega
      | some z => exact hwidth z rfl
    have b1 := a1.2.2.1
    have b2 := a2.2.2.1
    exact ⟨⟨a1.1, a2.2.1, a1.2.1, a2.1⟩, a1, a2, by omega, by omega⟩
  have mem' : ∀ q, q ∈ (drawPositions S h n g).map (fun p => (1 - p.1, 1 - p.2)) → ∃ p ∈ drawPositions S h n g, q = (1 - p.1, 1 - p.2) := by
    intro q hq
    obtain ⟨p, hpm, rfl⟩ := List.mem_map.mp hq
    exact ⟨p, hpm, rfl⟩
  obtain ⟨ri, ei, ei0, ei1⟩ := column_rows (fun (a : Img α) p => cropFixedImg border a height width p.2 p.1) b.images
    ((drawPositions S h n g).map (fun p => (1 - p.1, 1 - p.2)))
    (fun c hc => by rw [hi' c hc, List.length_map, hl]) (fun c hc a ha q hq => by
      obtain ⟨p, hpm, rfl⟩ := mem' q hq
      obtain ⟨n1, -, -, n4, n5⟩ := nn ⟨a.h, a.w⟩ p (his c hc a ha).1 (his c hc a ha).2 hpm
      obtain ⟨a', e, -⟩ := cropped_img border a _ n1 n4 n5
      rw [cropFixedImg, e]; simp)
  obtain ⟨rm, em, em0, em1⟩ := column_rows (fun (m : Map α) p => cropFixedMap border m height width p.2 p.1) b.maps
    ((drawPositions S h n g).map (fun p => (1 - p.1, 1 - p.2)))
    (fun c hc => by rw [hm c hc, List.length_map, hl]) (fun c hc m hmc q hq => by
      obtain ⟨p, hpm, rfl⟩ := mem' q hq
      obtain ⟨s1, s2, s3, s4⟩ := hms c hc m hmc
      obtain ⟨n1, -, -, n4, n5⟩ := nn m.shape p s1 s2 hpm
      obtain ⟨a', e, -⟩ := cropped_map border m _ n1 n4 n5 s3 s4
      rw [cropFixedMap, e]; simp)
  obtain ⟨rk, ek, ek0, ek1⟩ := column_rows (fun (k : KPsOnImage) p => cropFixedKps k height width p.2 p.1) b.keypoints
    ((drawPositions S h n g).map (fun p => (1 - p.1, 1 - p.2)))
    (fun c hc => by rw [hk c hc, List.length_map, hl]) (fun c hc k hkc q hq => by
      obtain ⟨p, hpm, rfl⟩ := mem' q hq
      obtain ⟨n1, -, -, n4, n5⟩ := nn k.shape p (hks c hc k hkc).1 (hks c hc k hkc).2 hpm
      obtain ⟨a', e, -⟩ := cropped_kps k _ n1 n4 n5
      rw [cropFixedKps, e]; simp)
  have sample : ∀ (i : Nat) p, (drawPositions S h n g)[i]? = some p →
      ((drawPositions S h n g).map (fun p => ((1 - p.1, 1 - p.2) : ℚ × ℚ)))[i]? = some (1 - p.1, 1 - p.2) := by
    intro i p hpi
    rw [List.getElem?_map, hpi]; rfl
  refine ⟨⟨ri, rm, rk⟩, drawPositions S h n g, by simp [cropToFixedSize, columns, ei, em, ek], hl, hall, ei0, em0, ek0, ?_, ?_, ?_⟩
  · intro c hc
    obtain ⟨d, e1, e2, e3⟩ := ei1 c hc
    refine ⟨d, e1, by rw [e2, hi' c hc], ?_⟩
    intro i a p ha hpi
    obtain ⟨a', f1, f2⟩ := e3 i a _ ha (sample i p hpi)
    have hsz := his c hc a (List.mem_of_getElem? ha)
    obtain ⟨n1, n2, n3, n4, n5⟩ := nn ⟨a.h, a.w⟩ p hsz.1 hsz.2 (List.mem_of_getElem? hpi)
    obtain ⟨a'', g1, g2⟩ := cropped_img border a _ n1 n4 n5
    rw [cropFixedImg, g1, Option.some.injEq] at f1
    subst f1
    exact ⟨_, _, f2, n2, n3, g2⟩
  · intro c hc
    obtain ⟨d, e1, e2, e3⟩ := em1 c hc
    refine ⟨d, e1, by rw [e2, hm c hc], ?_⟩
    intro i m p ha hpi
    obtain ⟨m', f1, f2⟩ := e3 i m _ ha (sample i p hpi)
    obtain ⟨s1, s2, s3, s4⟩ := hms c hc m (List.mem_of_getElem? ha)
    obtain ⟨n1, n2, n3, n4, n5⟩ := nn m.shape p s1 s2 (List.mem_of_getElem? hpi)
    obtain ⟨m'', g1, g2⟩ := cropped_map border m _ n1 n4 n5 s3 s4
    rw [cropFixedMap, g1, Option.some.injEq] at f1
    subst f1
    exact ⟨_, _, f2, n2, n3, g2⟩
  · intro c hc
    obtain ⟨d, e1, e2, e3⟩ := ek1 c hc
    refine ⟨d, e1, by rw [e2, hk c hc], ?_⟩
    intro i k p ha hpi
    obtain ⟨k', f1, f2⟩ := e3 i k _ ha (sample i p hpi)
    have hsz := hks c hc k (List.mem_of_getElem? ha)
    obtain ⟨n1, n2, n3, n4, n5⟩ := nn k.shape p hsz.1 hsz.2 (List.mem_of_getElem? hpi)
    obtain ⟨k'', g1, g2, g3, g4⟩ := cropped_kps k _ n1 n4 n5
    rw [cropFixedKps, g1, Option.some.injEq] at f1
    subst f1
    exact ⟨_, _, f2, n2, n3, g3, g4, g2⟩

/-- C101: for cropping the size is reached with all positions, also with parameters that yield values outside of [0, 1]. -/
theorem crop_any_position (border : Nat → Nat → α) (a : Img α) (k : KPsOnImage) (hk : k.shape = ⟨a.h, a.w⟩) (height width : Option Int)
    (hheight : ∀ z, height = some z → 1 ≤ z) (hwidth : ∀ z, width = some z → 1 ≤ z) (oy ox : ℚ) (hh : 1 ≤ a.h) (hw : 1 ≤ a.w) :
    ∃ b r, cropFixedImg border a height width oy ox = some b ∧ cropFixedKps k height width oy ox = some r ∧ r.shape = ⟨b.h, b.w⟩ ∧
      (b.h : Int) = min (a.h : Int) (height.getD a.h) ∧ (b.w : Int) = min (a.w : Int) (width.getD a.w) := by
  have axis : ∀ (n : Nat) (d : Option Int) (o : ℚ), 1 ≤ n → (∀ z, d = some z → 1 ≤ z) → ∀ s e : Int,
      (s, e) = (match d with
        | some m => if (n : Int) > m then (pyInt (o * (n - m)), n - m - pyInt (o * (n - m))) else (0, 0)
        | none => ((0, 0) : Int × Int)) →
      0 ≤ (preventZero n s e).1 ∧ 0 ≤ (preventZero n s e).2 ∧ n - (preventZero n s e).1 - (preventZero n s e).2 = min (n : Int) (d.getD n) := by
    intro n d o hn hd s e hse
    have hsum : n - s - e = min (n : Int) (d.getD n) := by
      cases d with
      | none => simp only [Prod.mk.injEq] at hse; simp only [Option.getD_none]; omega
      | some m =>
        by_cases hm : (n : Int) > m
        · simp only [if_pos hm, Prod.mk.injEq] at hse; simp only [Option.getD_some]; omega
        · simp only [if_neg hm, Prod.mk.injEq] at hse; simp only [Option.getD_some]; omega
    have hpos : 1 ≤ n - s - e := by
      rw [hsum]
      cases d with
      | none => simp only [Option.getD_none]; omega
      | some m => have := hd m rfl; simp only [Option.getD_some]; omega
    have hle : s + e ≤ n ∧ 0 ≤ s + e := by omega
    rw [← hsum]
    simp only [preventZero, abs]
    split_ifs <;> omega
  obtain ⟨t1, t2, t3⟩ := axis a.h height oy hh hheight (fixedCroppings ⟨a.h, a.w⟩ height width oy ox).top
    (fixedCroppings ⟨a.h, a.w⟩ height width oy ox).bottom rfl
  obtain ⟨l1, l2, l3⟩ := axis a.w width ox hw hwidth (fixedCroppings ⟨a.h, a.w⟩ height width oy ox).left
    (fixedCroppings ⟨a.h, a.w⟩ height width oy ox).right rfl
  have g1 : (0 : Int) ≤ min (a.h : Int) (height.getD a.h) := by
    cases height with
    | none => simp
    | some z => have := hheight z rfl; simp only [Option.getD_some]; omega
  have g2 : (0 : Int) ≤ min (a.w : Int) (width.getD a.w) := by
    cases width with
    | none => simp
    | some z => have := hwidth z rfl; simp only [Option.getD_some]; omega
  refine ⟨_, _, by simp only [cropFixedImg, cropPadArr, pad, le_refl, and_self, if_true, Option.map_some]; rfl,
    by simp only [cropFixedKps, cropPadKps, Bool.false_eq_true, if_false]; rfl, ?_, ?_, ?_⟩
  · rw [hk]
    simp only [shapeAfter, cropArr, cropXyxy]
    simp
  · simp only [cropArr, cropXyxy]
    rw [← t3] at g1 ⊢
    simp only [Int.toNat_zero, add_zero]
    omega
  · simp only [cropArr, cropXyxy]
    rw [← l3] at g2 ⊢
    simp only [Int.toNat_zero, add_zero]
    omega

/-- C101 is false for `PadToFixedSize` and parameters that yield values outside of [0, 1]: they are accepted, and padding fails. -/
theorem pad_outside : ∃ h, handlePosition (.par 0) = some h ∧ Ok (fun _ v => v = 2) far ∧
    padToFixedSize (fun _ _ => 0) far h (some 5) (some 5) 1 ⟨some [⟨3, 3, fun _ _ => 1⟩], none, none⟩ () = none := by
  refine ⟨_, rfl, far_ok, ?_⟩
  have e : fixedPaddings ⟨3, 3⟩ (some 5) (some 5) 2 2 = ⟨-2, 4, 4, -2⟩ := by decide +kernel
  have d : drawPositions far (.joint 0) 1 () = [(2, 2)] := by decide +kernel
  simp [padToFixedSize, columns, column, d, padFixedImg, e, cropPadArr, pad]

/-- A case: a batch of an image with a map and keypoints, padded on the right and at the top only. -/
example : ∃ h, handlePosition (.named .right .top) = some h ∧ Ok (fun _ v => v = 1 / 4) quarter ∧ Unit01 (fun _ v => v = 1 / 4) ∧
    fixedPaddings ⟨3, 4⟩ (some 5) (some 6) 1 0 = ⟨2, 2, 0, 0⟩ ∧ fixedCroppings ⟨7, 8⟩ (some 5) (some 6) (1 - 0) (1 - 1) = ⟨2, 2, 0, 0⟩ ∧
    drawPositions quarter h 2 () = [(1, 0), (1, 0)] :=
  ⟨_, rfl, quarter_ok, fun _ v hv => by rw [hv]; norm_num, by decide +kernel, by decide +kernel, by decide +kernel⟩

/-- A case: a parameter for both coordinates, and a tuple. -/
example : drawPositions quarter (.joint 3) 2 () = [(1 / 4, 1 / 4), (1 / 4, 1 / 4)] ∧
    handlePosition (.tuple [.num (1 / 3), .par 2]) = some (.two (.det (1 / 3)) (.par 2)) ∧
    handlePosition (.tuple [.num (4 / 3), .par 2]) = none ∧ PadsAt 3 (some 6) (1 / 3) 2 1 := by
  refine ⟨by decide +kernel, by decide +kernel, by decide +kernel, ?_⟩
  norm_num [PadsAt]

end Imgaug.Positions
