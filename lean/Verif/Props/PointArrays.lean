import Verif.Proofs.PointArrays
/-! Property C112: polygons and line strings as arrays of points. -/
namespace Imgaug.PointArrays

/-- C112: new coordinates are accepted iff there are exactly as many as points. -/
theorem fill_accepts (o : OnImage) (xy : List Pt) : (fill o xy).2 = true ↔ xy.length = (toXy o).length := by
  unfold fill toXy
  rw [List.length_flatten]
  by_cases h : (o.objs.map List.length).sum ≤ xy.length
  · simp [fillLoop_enough o.objs xy 0 (by omega)]
    omega
  · simp only [fillLoop_few o.objs xy 0 (by omega) (by omega), Bool.false_and, Bool.false_eq_true, false_iff]
    omega

/-- C112: objects are never added, removed, or given another number of points, and the shape stays, even if an exception is raised. -/
theorem fill_keeps_sizes (o : OnImage) (xy : List Pt) : sizes (fill o xy).1 = sizes o ∧ (fill o xy).1.shape = o.shape :=
  ⟨fillLoop_lengths o.objs xy 0, rfl⟩

/-- C112: accepted coordinates are exactly the coordinates that are read back. -/
theorem fill_then_read (o : OnImage) (xy : List Pt) (h : (fill o xy).2 = true) : toXy (fill o xy).1 = xy := by
  rw [fill_accepts] at h
  unfold toXy at h ⊢
  rw [List.length_flatten] at h
  unfold fill
  rw [fillLoop_enough o.objs xy 0 (by omega)]
  exact (invertLoop_flatten o.objs xy 0 (by omega)).1

/-- C112: writing the own coordinates changes nothing. -/
theorem read_then_fill (o : OnImage) : fill o (toXy o) = (o, true) := by
  have h : (fill o (toXy o)).2 = true := (fill_accepts o _).mpr rfl
  have h1 := fill_then_read o _ h
  have h2 := fill_keeps_sizes o (toXy o)
  have h3 := flatten_inj _ _ h2.1 h1
  have h4 : (fill o (toXy o)).1 = o := by
    cases o
    simp only at h3
    exact congrArg₂ OnImage.mk h3 h2.2
  exact Prod.ext h4 h

/-- C112: point `j` of object `i` gets the coordinates with the number `j` after the points of the objects before. -/
theorem fill_point (o : OnImage) (xy : List Pt) (h : (fill o xy).2 = true) (i j : Nat) (ob : List Pt) (hi : o.objs[i]? = some ob) (hj : j < ob.length) :
    ∃ ob', (fill o xy).1.objs[i]? = some ob' ∧ ob'[j]? = xy[start o i + j]? := by
  rw [fill_accepts, toXy, List.length_flatten] at h
  unfold fill
  rw [fillLoop_enough o.objs xy 0 (by omega)]
  refine ⟨_, getElem_invertLoop o.objs xy 0 i ob hi, ?_⟩
  rw [List.getElem?_take_of_lt hj, List.getElem?_drop, Nat.zero_add]
  rfl

example : fill ⟨[[(1, 2)], [], [(3, 4), (5, 6)]], [10, 20]⟩ [(7, 8), (9, 10), (11, 12)] = (⟨[[(7, 8)], [], [(9, 10), (11, 12)]], [10, 20]⟩, true) ∧
    (fill ⟨[[(1, 2)], [], [(3, 4), (5, 6)]], [10, 20]⟩ [(7, 8), (9, 10)]).2 = false := by decide +kernel

/-- C112 (partial): what is left after an exception: the objects for which there were enough coordinates have new ones, the others are kept. Missing: an
unchanged instance, see `fill_not_atomic`. -/
theorem fill_after_exception_partial (o : OnImage) (xy : List Pt) (i : Nat) (ob : List Pt) (hi : o.objs[i]? = some ob) :
    (fill o xy).1.objs[i]? = some (if start o (i + 1) ≤ xy.length then (xy.drop (start o i)).take ob.length else ob) := by
  have := fillLoop_prefix o.objs xy 0 i ob hi (by omega)
  rw [Nat.zero_add, Nat.zero_add] at this
  exact this

/-- C112 is false for rejected coordinates: an instance for which `fill_from_xy_array_` raises an exception may have changed. -/
theorem fill_not_atomic : ∃ (o : OnImage) (few many : List Pt), (fill o few).2 = false ∧ (fill o few).1 ≠ o ∧
    (fill o many).2 = false ∧ (fill o many).1 ≠ o :=
  ⟨⟨[[(1, 2)], [(3, 4)]], [10, 20]⟩, [(7, 8)], [(7, 8), (9, 10), (11, 12)], by decide +kernel⟩

/-- C112: keypoints are accepted iff there are exactly as many as points; otherwise the instance is unchanged. -/
theorem invert_accepts (o : OnImage) (k : Kps) :
    ((invert o k).2 = true ↔ k.kps.length = (toKps o).kps.length) ∧ ((invert o k).2 = false → (invert o k).1 = o) := by
  unfold invert toKps
  rw [List.length_flatten]
  split <;> simp [*]

/-- C112: converting to keypoints and back changes nothing. -/
theorem kps_and_back (o : OnImage) : invert o (toKps o) = (o, true) := by
  unfold invert toKps
  rw [List.length_flatten, if_pos rfl]
  obtain ⟨h1, h2⟩ := invertLoop_flatten o.objs o.objs.flatten 0 (by rw [List.length_flatten]; omega)
  rw [flatten_inj _ _ h2 h1]

/-- C112: whatever function moves the keypoints one by one, and whatever shape the image gets: after converting back, exactly the points of every object were
moved by it and the instance has the new shape. -/
theorem moved_as_keypoints (o : OnImage) (f : Pt → Pt) (s : List Nat) :
    invert o ⟨(toKps o).kps.map f, s⟩ = (⟨o.objs.map (fun ob => ob.map f), s⟩, true) := by
  unfold invert toKps
  simp only
  rw [List.length_map, List.length_flatten, if_pos rfl]
  obtain ⟨h1, h2⟩ := invertLoop_flatten o.objs (o.objs.flatten.map f) 0 (by rw [List.length_map, List.length_flatten]; omega)
  have h3 : (o.objs.map (fun ob => ob.map f)).map List.length = o.objs.map List.length := by simp [Function.comp_def]
  rw [flatten_inj _ _ (h2.trans h3.symm) (by rw [h1, List.drop_zero, List.map_flatten])]

/-- C112: keypoints and coordinates are the same numbers, in the same order. -/
theorem kps_are_coordinates (o : OnImage) (xy : List Pt) (h : xy.length = (toXy o).length) :
    (toKps o).kps = toXy o ∧ (invert o ⟨xy, o.shape⟩).1 = (fill o xy).1 := by
  refine ⟨rfl, ?_⟩
  rw [toXy, List.length_flatten] at h
  unfold invert fill
  rw [if_pos h, fillLoop_enough o.objs xy 0 (by omega)]

end Imgaug.PointArrays
