import Verif.MangleStruct
import Verif.MangleLemmas

/-
What the textual names of structures are compared with: the types of structures, as structures in which all run-time
values are zero.
-/

namespace Noarr

/-- The names are usable: dimensions are different characters, and types have different names, without special
characters. -/
structure Names.Ok (N : Names) : Prop where
  dim : ∀ d e, N.isChar d = true → N.isChar e = true → N.dim d = N.dim e → d = e
  elem : ∀ z a z' a', N.elem z a = N.elem z' a' → z = z' ∧ a = a'
  name : ∀ z a, IsName (N.elem z a) ∧ N.elem z a ≠ []

/-- The type of a value: all run-time values have the same one. -/
def Val.typed : Val → Val
  | .dyn _ => .dyn 0
  | v => v

/-- The type of a view. -/
def View.typed : View → View
  | .fix d i => .fix d i.typed
  | .setLength d l => .setLength d l.typed
  | .shift d a => .shift d a.typed
  | .slice d a l => .slice d a.typed l.typed
  | .span d a e => .span d a.typed e.typed
  | .step d a k => .step d a.typed k.typed
  | .intoBlocksStat d b maj min l => .intoBlocksStat d b maj min l.typed
  | v => v

/-- The type of a structure. -/
def Struct.typed : Struct → Struct
  | .scalar z a => .scalar z a
  | .tuple t n fs => .tuple t n fun i => (fs i).typed
  | .vector d s => .vector d s.typed
  | .union n ss => .union n fun i => (ss i).typed
  | .view v s => .view v.typed s.typed

end Noarr
