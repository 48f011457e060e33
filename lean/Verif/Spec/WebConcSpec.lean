import Verif.Model.WebConc
/-!
# Specification for C110: requests at the same time
-/
namespace Acltk.Web
open Acltk

variable {T : Type}

/-- The `i`-th request that arrived is `r` and has been answered. -/
def Answered (s : Sys T) (i : Nat) (r : Request) (ans : Answer T) : Prop := s.procs[i]? = some (r, .done ans)

/-- The requests with these numbers, in that order. -/
def Sys.requests (s : Sys T) (order : List Nat) : List Request := order.filterMap fun i => (s.procs[i]?).map (·.1)

/-- `x` is in front of `y`. -/
def Before (l : List Nat) (x y : Nat) : Prop := ∃ a b c, l = a ++ x :: b ++ y :: c

/-- The requests answered so far might have come one after the other, in that order: the shelf is the one they leave, and each has the
answer it gets then. -/
structure Sequential (a : App T) (db : Shelf T) (s : Sys T) (order : List Nat) : Prop where
  nodup : order.Nodup
  mem : ∀ i, i ∈ order ↔ ∃ r ans, Answered s i r ans
  shelf : s.db = serve a db (s.requests order)
  answers : ∀ l i m r ans, order = l ++ i :: m → Answered s i r ans → ans = (handle a (serve a db (s.requests l)) r).2

end Acltk.Web
