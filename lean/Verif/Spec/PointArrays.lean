import Verif.Model.PointArrays
/-! Vocabulary for the statements in Props/PointArrays.lean. -/
namespace Imgaug.PointArrays

/-- The numbers of points of the objects. -/
def sizes (o : OnImage) : List Nat := o.objs.map List.length

/-- Where the points of object `i` begin if the points of all objects are written one after the other. -/
def start (o : OnImage) (i : Nat) : Nat := ((sizes o).take i).sum

end Imgaug.PointArrays
