import Verif.Model.Channels
/-! Specification for C41 and C42. -/
namespace Imgaug.Channels

/-- The index `i` denotes channel `k` of an image with `c` channels: directly, or counted from the end. -/
def Denotes (c : Nat) (i : Int) (k : Nat) : Prop := k < c ∧ (i = k ∨ i = (k : Int) - c)

/-- `s` consists of the listed channels of `im`, in the listed order. -/
def Selected {α : Type} (l : List Int) (im s : CImg α) : Prop :=
  s.h = im.h ∧ s.w = im.w ∧ s.dt = im.dt ∧ s.c = l.length ∧
  ∀ (j : Nat) (i : Int), l[j]? = some i → ∃ k, Denotes im.c i k ∧ ∀ y x, s.px y x j = im.px y x k

/-- `r` is `im` with the listed channels replaced by those of `a`: the channels that are not listed are unchanged, and
a listed channel has the content of the channel of `a` at its (last) position in the list. If `a` has one channel only,
it is used for all. -/
def Replaced {α : Type} (l : List Int) (im a r : CImg α) : Prop :=
  r.h = im.h ∧ r.w = im.w ∧ r.c = im.c ∧ r.dt = im.dt ∧ (a.c = l.length ∨ a.c = 1) ∧
  (∀ k, (∀ i ∈ l, ¬ Denotes im.c i k) → ∀ y x, r.px y x k = im.px y x k) ∧
  (∀ (j : Nat) (i : Int) (k : Nat), l[j]? = some i → Denotes im.c i k →
    (∀ (j' : Nat) (i' : Int), j < j' → l[j']? = some i' → ¬ Denotes im.c i' k) →
    ∀ y x, r.px y x k = a.px y x (if a.c = l.length then j else 0))

/-- A `.shape` is that of an image with `n` channels: `(h, w)` stands for one channel, otherwise the third entry counts. -/
def ShapeChannels (shape : List Nat) (n : Nat) : Prop :=
  (∃ h w, shape = [h, w] ∧ n = 1) ∨ (∃ h w rest, shape = h :: w :: n :: rest)

end Imgaug.Channels
