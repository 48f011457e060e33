import Verif.Spec.PageSpec
/-!
# Specification for C114: the objects before and after `--expand`
-/
namespace Acltk.Page
open Acltk Acltk.Resolve

/-- `l'` are the members `l` of a group of class `c` after it has been expanded: in order, the members of a group of the same class in place of that group, of a
network group the addresses of a network object in place of that object, of a service group a new service (`svc`) in place of a service object. -/
inductive Flat (heap : Oid → Obj) (svc : Oid → Oid) (c : GroupClass) : List El → List El → Prop
  | nil : Flat heap svc c [] []
  | group {o n m l a b} : heap o = .group c n m → Flat heap svc c m a → Flat heap svc c l b → Flat heap svc c (.obj o :: l) (a ++ b)
  | addresses {o n as l b} : c = .network → heap o = .netObject n as → Flat heap svc c l b → Flat heap svc c (.obj o :: l) (as ++ b)
  | service {o n l b} : c = .service → heap o = .svcObject n → Flat heap svc c l b → Flat heap svc c (.obj o :: l) (.obj (svc o) :: b)
  | item {x l b} : (∀ o n m, x = .obj o → heap o ≠ .group c n m) → (c = .network → ∀ o n m, x = .obj o → heap o ≠ .netObject n m) →
      (c = .service → ∀ o n, x = .obj o → heap o ≠ .svcObject n) → Flat heap svc c l b → Flat heap svc c (x :: l) (x :: b)

/-- `heap'` are the objects `heap` of a configuration after `--expand`: the groups that the configuration lists have been expanded, nothing else has changed. -/
structure Expanded (heap : Oid → Obj) (svc : Oid → Oid) (tb : Tables) (heap' : Oid → Obj) : Prop where
  others : ∀ o, (∀ c n l, heap o ≠ .group c n l) → heap' o = heap o
  listed : ∀ c k o n l, dGet (tb.table (.group c)) k = some o → heap o = .group c n l → ∃ l', Flat heap svc c l l' ∧ heap' o = .group c n l'
  unlisted : ∀ c o n l, (∀ k, dGet (tb.table (.group c)) k ≠ some o) → heap o = .group c n l → heap' o = heap o

/-- The new services are objects that were not there before. -/
def NewServices (heap : Oid → Obj) (svc : Oid → Oid) : Prop := ∀ o n, heap o = .svcObject n → heap (svc o) = .other

/-- The addresses of network objects are not named (aclObjects.py:360-378). -/
def PlainAddresses (heap : Oid → Obj) : Prop :=
  ∀ o n l, heap o = .netObject n l → ∀ x ∈ l, ∃ q, x = .obj q ∧ (heap q = .address none ∨ heap q = .other)

/-- No group contains itself. -/
def Nested (heap : Oid → Obj) (rank : Oid → Nat) : Prop :=
  ∀ o c n l, heap o = .group c n l → ∀ q m l', .obj q ∈ l → heap q = .group c m l' → rank q < rank o

end Acltk.Page
