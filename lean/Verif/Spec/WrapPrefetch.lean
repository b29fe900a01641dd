import Verif.Model.WrapPrefetch
/-! Vocabulary for the wrapping of parameters. -/
namespace Imgaug.Wrap

mutual
/-- The value without prefetchers: what is sampled, apart from buffering. -/
def bare : V → V
  | .const => .const
  | .seq l => .seq (bareAll l)
  | .param rd pf attrs => .param rd pf (bareAll attrs)
  | .auto p => bare p
def bareAll : List V → List V
  | [] => []
  | a :: t => bare a :: bareAll t
end

mutual
/-- `P` holds of some parameter in the value (`rd` and `pf` being its properties), wherever it is. -/
def Has (P : Bool → Bool → Prop) : V → Prop
  | .const => False
  | .seq l => HasAny P l
  | .param rd pf attrs => P rd pf ∨ HasAny P attrs
  | .auto p => Has P p
def HasAny (P : Bool → Bool → Prop) : List V → Prop
  | [] => False
  | a :: t => Has P a ∨ HasAny P t
end

mutual
/-- There is a prefetcher in the value. -/
def HasAuto : V → Prop
  | .const => False
  | .seq l => HasAutoAny l
  | .param _ _ attrs => HasAutoAny attrs
  | .auto _ => True
def HasAutoAny : List V → Prop
  | [] => False
  | a :: t => HasAuto a ∨ HasAutoAny t
end

mutual
/-- `Q p` holds for all parameters `p` that are directly in a prefetcher. -/
def Inside (Q : V → Prop) : V → Prop
  | .const => True
  | .seq l => InsideAll Q l
  | .param _ _ attrs => InsideAll Q attrs
  | .auto p => Q p ∧ Inside Q p
def InsideAll (Q : V → Prop) : List V → Prop
  | [] => True
  | a :: t => Inside Q a ∧ InsideAll Q t
end

/-- The attributes of a parameter have the property, somewhere. -/
def BelowHas (P : Bool → Bool → Prop) : V → Prop
  | .param _ _ attrs => HasAny P attrs
  | _ => False

mutual
/-- Every prefetchable parameter has a prefetcher around it or somewhere in its attributes. -/
def Covered : V → Prop
  | .const => True
  | .seq l => CoveredAll l
  | .param _ pf attrs => (pf = true → HasAutoAny attrs) ∧ CoveredAll attrs
  | .auto _ => True
def CoveredAll : List V → Prop
  | [] => True
  | a :: t => Covered a ∧ CoveredAll t
end

end Imgaug.Wrap
