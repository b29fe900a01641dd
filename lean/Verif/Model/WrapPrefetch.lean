import Verif.Model.Prefetch
/-! Model of `_wrap_leafs_of_param_in_prefetchers`, imgaug/parameters.py 67-119: which parameters get an `AutoPrefetcher`.

Simplifications. The values of the attributes of a parameter, in the order of its `__dict__`, are the children of a node; that attributes are
replaced in the parameter itself, so that other references to it see the change, is not modelled. -/
namespace Imgaug.Wrap

/-- A Python value: something that is neither a parameter nor a list or tuple; a list or tuple; a stochastic parameter with its property
`prefetchable` and the fact whether it uses the random number generator itself; an `AutoPrefetcher` around a parameter. -/
inductive V where
  | const
  | seq (l : List V)
  | param (random prefetchable : Bool) (attrs : List V)
  | auto (p : V)
  deriving Repr

mutual
/-- `_wrap_leafs_of_param_in_prefetchers_recursive`, parameters.py 77-119: the new value and `did_wrap_any_child`. `en` is
`_PREFETCHING_ENABLED`. -/
def wrapRec (en : Bool) : V → V × Bool
  | .auto p => (.auto p, true)
  | .seq l =>
    let r := wrapAll en l
    if r.2 then (.seq r.1, true) else (.seq l, false)
  | .const => (.const, false)
  | .param rd pf attrs =>
    let r := wrapAll en attrs
    if pf && !r.2 && en then (.auto (.param rd pf r.1), true) else (.param rd pf r.1, r.2)
/-- The loops, parameters.py 90-96 and 108-115. -/
def wrapAll (en : Bool) : List V → List V × Bool
  | [] => ([], false)
  | a :: t =>
    let r := wrapRec en a
    let q := wrapAll en t
    (r.1 :: q.1, r.2 || q.2)
end

/-- `_wrap_leafs_of_param_in_prefetchers`, parameters.py 68-73. -/
def wrap (en : Bool) (v : V) : V := (wrapRec en v).1

end Imgaug.Wrap
