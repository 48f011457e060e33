import Verif.Props.HostMatch
import Verif.Spec.LeavesSpec
/-!
# C96: exactly which host comparisons do not terminate
-/
namespace Acltk

/-- `a & b` raises RecursionError whatever the recursion limit is. -/
def Diverges (a b : Host) : Prop := ∀ fuel, meet fuel a b = .error .recursion

/-- `a & b` returns `r`, under every recursion limit that is large enough. -/
def Returns (a b : Host) (r : Bool) : Prop := ∃ N, ∀ fuel, N ≤ fuel → meet fuel a b = .ok r

namespace Diverge

theorem loopAny_error {α : Type} {f : α → Py Bool} {l : List α} {e : PyErr} (hf : ∀ x ∈ l, ∀ e, f x = .error e → e = .recursion)
    (h : loopAny f l = .error e) : e = .recursion := by
  induction l with
  | nil => cases h
  | cons x t ih =>
    unfold loopAny at h
    cases hx : f x with
    | error e' => rw [hx] at h; cases h; exact hf x (by simp) _ hx
    | ok r =>
      rw [hx] at h
      cases r with
      | true => cases h
      | false => exact ih (fun y hy => hf y (by simp [hy])) h

theorem meet_error {fuel : Nat} {a b : Host} {e : PyErr} (h : meet fuel a b = .error e) : e = .recursion := by
  induction fuel generalizing a b e with
  | zero => cases h; rfl
  | succ n ih =>
    cases a <;> simp only [meet] at h
    case obj nm l => exact loopAny_error (fun x _ e he => ih he) h
    case group nm l => exact loopAny_error (fun x _ e he => ih he) h
    all_goals first | (cases h; done) | skip
    all_goals repeat' split at h
    all_goals first | (cases h; done) | exact ih h | exact loopAny_error (fun x _ e he => ih he) h

theorem mono {a b : Host} {r : Bool} {n m : Nat} (hnm : n ≤ m) (h : meet n a b = .ok r) : meet m a b = .ok r := by
  obtain ⟨k, rfl⟩ := Nat.exists_eq_add_of_le hnm
  induction k with
  | zero => exact h
  | succ k ih => exact meet_mono _ (ih (by omega))

theorem returns_of {a b : Host} {r : Bool} {n : Nat} (h : meet n a b = .ok r) : Returns a b r :=
  ⟨n, fun _ hm => mono hm h⟩

/-- A comparison diverges or returns. -/
theorem dich (a b : Host) : Diverges a b ∨ ∃ r, Returns a b r := by
  by_cases h : ∃ n r, meet n a b = .ok r
  · obtain ⟨n, r, h⟩ := h
    exact Or.inr ⟨r, returns_of h⟩
  · refine Or.inl fun n => ?_
    cases hm : meet n a b with
    | ok r => exact absurd ⟨n, r, hm⟩ h
    | error e => rw [meet_error hm]

theorem not_both {a b : Host} {r : Bool} (hd : Diverges a b) (hr : Returns a b r) : False := by
  obtain ⟨N, hr⟩ := hr
  have := hr N (Nat.le_refl _)
  rw [hd N] at this
  cases this

theorem returns_unique {a b : Host} {r s : Bool} (h : Returns a b r) (h' : Returns a b s) : r = s := by
  obtain ⟨N, h⟩ := h
  obtain ⟨M, h'⟩ := h'
  have := h (max N M) (Nat.le_max_left ..)
  rw [h' _ (Nat.le_max_right ..)] at this
  cases this
  rfl

theorem loop_false {α : Type} (f : Nat → α → Py Bool) (l : List α) :
    (∃ N, ∀ n, N ≤ n → loopAny (f n) l = .ok false) ↔ ∀ x ∈ l, ∃ N, ∀ n, N ≤ n → f n x = .ok false := by
  induction l with
  | nil => exact ⟨fun _ x hx => absurd hx (by simp), fun _ => ⟨0, fun _ _ => rfl⟩⟩
  | cons x t ih =>
    rw [List.forall_mem_cons, ← ih]
    constructor
    · rintro ⟨N, h⟩
      have h1 : ∀ n, N ≤ n → f n x = .ok false := by
        intro n hn
        have := h n hn
        unfold loopAny at this
        cases hx : f n x with
        | error e => rw [hx] at this; cases this
        | ok r => cases r with
          | true => rw [hx] at this; cases this
          | false => rfl
      refine ⟨⟨N, h1⟩, N, fun n hn => ?_⟩
      have := h n hn
      unfold loopAny at this
      rw [h1 n hn] at this
      exact this
    · rintro ⟨⟨N, h1⟩, M, h2⟩
      refine ⟨max N M, fun n hn => ?_⟩
      unfold loopAny
      rw [h1 n (by omega)]
      exact h2 n (by omega)

theorem loop_mono {α : Type} (f : Nat → α → Py Bool) (l : List α) {n m : Nat} {r : Bool}
    (hm : ∀ x ∈ l, ∀ n m r, n ≤ m → f n x = .ok r → f m x = .ok r) (hnm : n ≤ m) (h : loopAny (f n) l = .ok r) :
    loopAny (f m) l = .ok r := by
  induction l with
  | nil => exact h
  | cons y t ih =>
    unfold loopAny at h ⊢
    cases hy : f n y with
    | error e => rw [hy] at h; cases h
    | ok s =>
      rw [hm y (by simp) n m s hnm hy]
      rw [hy] at h
      cases s with
      | true => exact h
      | false => exact ih (fun z hz => hm z (by simp [hz])) h

/-- A loop over members diverges at the first member that does not return False, if that one diverges. -/
theorem loop_diverges {α : Type} (f : Nat → α → Py Bool) (l : List α)
    (hd : ∀ x ∈ l, (∀ n, f n x = .error .recursion) ∨ ∃ r N, ∀ n, N ≤ n → f n x = .ok r)
    (hm : ∀ x ∈ l, ∀ n m r, n ≤ m → f n x = .ok r → f m x = .ok r)
    (he : ∀ x ∈ l, ∀ n e, f n x = .error e → e = .recursion) :
    (∀ n, loopAny (f n) l = .error .recursion) ↔
      ∃ l1 x l2, l = l1 ++ x :: l2 ∧ (∀ y ∈ l1, ∃ N, ∀ n, N ≤ n → f n y = .ok false) ∧ ∀ n, f n x = .error .recursion := by
  induction l with
  | nil =>
    constructor
    · intro h; exact absurd (h 0) (by simp [loopAny])
    · rintro ⟨l1, x, l2, h, -⟩; simp at h
  | cons x t ih =>
    have ih := ih (fun y hy => hd y (by simp [hy])) (fun y hy => hm y (by simp [hy])) (fun y hy => he y (by simp [hy]))
    constructor
    · intro h
      rcases hd x (by simp) with hx | ⟨r, N, hx⟩
      · exact ⟨[], x, t, rfl, by simp, hx⟩
      · cases r with
        | true =>
          have := h N
          unfold loopAny at this
          rw [hx N (Nat.le_refl _)] at this
          cases this
        | false =>
          have ht : ∀ n, loopAny (f n) t = .error .recursion := by
            intro n
            cases hl : loopAny (f n) t with
            | error e => rw [loopAny_error (fun y hy e => he y (by simp [hy]) n e) hl]
            | ok r =>
              have hM := loop_mono f t (fun y hy => hm y (by simp [hy])) (Nat.le_max_left n N) hl
              have := h (max n N)
              unfold loopAny at this
              rw [hx _ (Nat.le_max_right ..)] at this
              rw [hM] at this
              cases this
          obtain ⟨l1, y, l2, e, h1, h2⟩ := ih.1 ht
          refine ⟨x :: l1, y, l2, by rw [e]; rfl, ?_, h2⟩
          intro z hz
          rcases List.mem_cons.1 hz with rfl | hz
          · exact ⟨N, hx⟩
          · exact h1 z hz
    · rintro ⟨l1, y, l2, e, h1, h2⟩ n
      unfold loopAny
      cases l1 with
      | nil =>
        cases e
        rw [h2 n]
      | cons z l1 =>
        cases e
        have ht := ih.2 ⟨l1, y, l2, rfl, fun w hw => h1 w (by simp [hw]), h2⟩ n
        obtain ⟨N, hN⟩ := h1 x (by simp)
        cases hx : f n x with
        | error e => rw [he x (by simp) n e hx]
        | ok r =>
          have e1 := hm x (by simp) n (max n N) r (Nat.le_max_left ..) hx
          rw [hN _ (Nat.le_max_right ..)] at e1
          cases e1
          exact ht

/-- From members to leaves. -/
theorem leaves_of (D F : Host → Prop) (h : Host)
    (hs : ∀ nm l, (D (.obj nm l) ↔ ∃ l1 x l2, l = l1 ++ x :: l2 ∧ (∀ y ∈ l1, F y) ∧ D x) ∧ (F (.obj nm l) ↔ ∀ y ∈ l, F y) ∧
      (D (.group nm l) ↔ ∃ l1 x l2, l = l1 ++ x :: l2 ∧ (∀ y ∈ l1, F y) ∧ D x) ∧ (F (.group nm l) ↔ ∀ y ∈ l, F y)) :
    (D h ↔ ∃ l1 x l2, h.leaves = l1 ++ x :: l2 ∧ (∀ y ∈ l1, F y) ∧ D x) ∧ (F h ↔ ∀ y ∈ h.leaves, F y) := by
  have list : ∀ l : List Host, (∀ x ∈ l, (D x ↔ ∃ l1 y l2, x.leaves = l1 ++ y :: l2 ∧ (∀ z ∈ l1, F z) ∧ D y) ∧ (F x ↔ ∀ y ∈ x.leaves, F y)) →
      ((∃ l1 x l2, l = l1 ++ x :: l2 ∧ (∀ y ∈ l1, F y) ∧ D x) ↔
        ∃ l1 x l2, Host.leavesList l = l1 ++ x :: l2 ∧ (∀ y ∈ l1, F y) ∧ D x) ∧
      ((∀ y ∈ l, F y) ↔ ∀ y ∈ Host.leavesList l, F y) := by
    intro l
    induction l with
    | nil => intro _; simp [Host.leavesList]
    | cons x t ih =>
      intro hl
      obtain ⟨ih1, ih2⟩ := ih (fun y hy => hl y (by simp [hy]))
      obtain ⟨hx1, hx2⟩ := hl x (by simp)
      constructor
      · constructor
        · rintro ⟨l1, y, l2, e, h1, h2⟩
          cases l1 with
          | nil =>
            cases e
            obtain ⟨m1, z, m2, e, h3, h4⟩ := hx1.1 h2
            exact ⟨m1, z, m2 ++ Host.leavesList t, by simp [Host.leavesList, e], h3, h4⟩
          | cons w l1 =>
            cases e
            obtain ⟨m1, z, m2, e, h3, h4⟩ := ih1.1 ⟨l1, y, l2, rfl, fun v hv => h1 v (by simp [hv]), h2⟩
            refine ⟨x.leaves ++ m1, z, m2, by rw [Host.leavesList, List.append_assoc, e], ?_, h4⟩
            intro v hv
            rcases List.mem_append.1 hv with hv | hv
            · exact hx2.1 (h1 x (by simp)) v hv
            · exact h3 v hv
        · rintro ⟨m1, z, m2, e, h3, h4⟩
          rw [Host.leavesList] at e
          rcases List.append_eq_append_iff.1 e with ⟨c, e1, e2⟩ | ⟨c, e1, e2⟩
          · obtain ⟨l1, y, l2, e3, h5, h6⟩ := ih1.2 ⟨c, z, m2, e2, fun v hv => h3 v (by rw [e1]; simp [hv]), h4⟩
            refine ⟨x :: l1, y, l2, by rw [e3]; rfl, ?_, h6⟩
            intro v hv
            rcases List.mem_cons.1 hv with rfl | hv
            · exact hx2.2 (fun w hw => h3 w (by rw [e1]; simp [hw]))
            · exact h5 v hv
          · cases c with
            | nil =>
              simp only [List.append_nil, List.nil_append] at e1 e2
              obtain ⟨l1, y, l2, e3, h5, h6⟩ := ih1.2 ⟨[], z, m2, by simpa using e2.symm, by simp, h4⟩
              refine ⟨x :: l1, y, l2, by rw [e3]; rfl, ?_, h6⟩
              intro v hv
              rcases List.mem_cons.1 hv with rfl | hv
              · exact hx2.2 (fun w hw => h3 w (by rw [← e1]; exact hw))
              · exact h5 v hv
            | cons w c =>
              cases e2
              exact ⟨[], x, t, rfl, by simp, hx1.2 ⟨m1, _, c, e1, h3, h4⟩⟩
      · rw [List.forall_mem_cons, ih2, hx2]
        have e : Host.leavesList (x :: t) = x.leaves ++ Host.leavesList t := by rw [Host.leavesList]
        rw [e]
        constructor
        · rintro ⟨h1, h2⟩ y hy
          rcases List.mem_append.1 hy with hy | hy
          · exact h1 y hy
          · exact h2 y hy
        · intro h1
          exact ⟨fun y hy => h1 y (by simp [hy]), fun y hy => h1 y (by simp [hy])⟩
  have main : ∀ n (h : Host), h.depth ≤ n →
      (D h ↔ ∃ l1 x l2, h.leaves = l1 ++ x :: l2 ∧ (∀ y ∈ l1, F y) ∧ D x) ∧ (F h ↔ ∀ y ∈ h.leaves, F y) := by
    intro n
    induction n with
    | zero => intro h hn; cases h <;> simp [Host.depth] at hn
    | succ n ih =>
      intro h hn
      have single : h.leaves = [h] → (D h ↔ ∃ l1 x l2, h.leaves = l1 ++ x :: l2 ∧ (∀ y ∈ l1, F y) ∧ D x) ∧ (F h ↔ ∀ y ∈ h.leaves, F y) := by
        intro e
        rw [e]
        refine ⟨⟨fun hd => ⟨[], h, [], rfl, by simp, hd⟩, ?_⟩, by simp⟩
        rintro ⟨l1, x, l2, e, -, hd⟩
        cases l1 with
        | nil => cases e; exact hd
        | cons a l1 => simp at e
      have mem : ∀ l : List Host, Host.depthList l ≤ n → ∀ x ∈ l, x.depth ≤ n := by
        intro l
        induction l with
        | nil => simp
        | cons y t iht =>
          intro hl x hx
          simp only [Host.depthList] at hl
          rcases List.mem_cons.1 hx with rfl | hx
          · omega
          · exact iht (by omega) x hx
      cases h with
      | obj nm l =>
        have hl := list l (fun x hx => ih x (mem l (by simp only [Host.depth] at hn; omega) x hx))
        exact ⟨(hs nm l).1.trans hl.1, (hs nm l).2.1.trans hl.2⟩
      | group nm l =>
        have hl := list l (fun x hx => ih x (mem l (by simp only [Host.depth] at hn; omega) x hx))
        exact ⟨(hs nm l).2.2.1.trans hl.1, (hs nm l).2.2.2.trans hl.2⟩
      | _ => exact single (by simp [Host.leaves])
  exact main h.depth h (Nat.le_refl _)

theorem zero {a b : Host} (n : Nat) (hn : n < 1) : meet n a b = .error .recursion := by
  obtain rfl : n = 0 := by omega
  rfl

theorem loop_iff (a b : Host) (l : List Host) (k : Nat)
    (h0 : ∀ n, n < k → meet n a b = .error .recursion)
    (h : ∀ n, meet (n + k) a b = loopAny (fun i => meet n i b) l) :
    (Diverges a b ↔ ∃ l1 x l2, l = l1 ++ x :: l2 ∧
      (∀ y ∈ l1, Returns y b false) ∧ Diverges x b) ∧
    (Returns a b false ↔ ∀ y ∈ l, Returns y b false) := by
  have h1 := loop_diverges (fun n i => meet n i b) l (fun x _ => dich x _) (fun x _ n m r hnm hr => mono hnm hr)
    (fun x _ n e he => meet_error he)
  have h2 := loop_false (fun n i => meet n i b) l
  constructor
  · refine Iff.trans ?_ h1
    constructor
    · intro hd n; rw [← h n]; exact hd _
    · intro hd n
      by_cases hn : n < k
      · exact h0 n hn
      · have := h (n - k)
        rw [show n - k + k = n by omega] at this
        rw [this]; exact hd _
  · refine Iff.trans ?_ h2
    constructor
    · rintro ⟨N, hN⟩
      exact ⟨N, fun n hn => by rw [← h n]; exact hN _ (by omega)⟩
    · rintro ⟨N, hN⟩
      refine ⟨N + k, fun n hn => ?_⟩
      have := h (n - k)
      rw [show n - k + k = n by omega] at this
      rw [this]; exact hN _ (by omega)

/-- A wildcard gives the same answer on both sides. -/
theorem wild_comm (a w : Nat) (y : Host) :
    (Diverges (.wild a w) y ↔ Diverges y (.wild a w)) ∧ ∀ r, Returns (.wild a w) y r ↔ Returns y (.wild a w) r := by
  have flip : ∀ x z : Host, (∀ n, meet (n + 1) x z = meet n z x) →
      (Diverges x z ↔ Diverges z x) ∧ ∀ r, Returns x z r ↔ Returns z x r := by
    intro x z h
    refine ⟨⟨fun hd n => by rw [← h n]; exact hd _, fun hd n => ?_⟩, fun r => ⟨?_, ?_⟩⟩
    · cases n with
      | zero => rfl
      | succ n => rw [h]; exact hd n
    · rintro ⟨N, hN⟩; exact ⟨N, fun n hn => by rw [← h n]; exact hN _ (by omega)⟩
    · rintro ⟨N, hN⟩
      refine ⟨N + 1, fun n hn => ?_⟩
      obtain ⟨m, rfl⟩ : ∃ m, n = m + 1 := ⟨n - 1, by omega⟩
      rw [h]; exact hN m (by omega)
  cases y with
  | net n =>
    have := flip (.net n) (.wild a w) (fun _ => by simp only [meet])
    exact ⟨this.1.symm, fun r => (this.2 r).symm⟩
  | host n =>
    have := flip (.host n) (.wild a w) (fun _ => by simp only [meet])
    exact ⟨this.1.symm, fun r => (this.2 r).symm⟩
  | _ => exact flip _ _ (fun _ => by simp only [meet])

end Diverge
open Diverge

/-- The leaves of a host are what C01 calls its leaves. -/
theorem mem_leaves (h x : Host) : x ∈ h.leaves ↔ Leaf h x := by
  have list : ∀ l : List Host, (∀ h ∈ l, ∀ x, x ∈ h.leaves ↔ Leaf h x) → ∀ x, x ∈ Host.leavesList l ↔ ∃ h ∈ l, Leaf h x := by
    intro l
    induction l with
    | nil => simp [Host.leavesList]
    | cons y t ih =>
      intro hl x
      simp only [Host.leavesList, List.mem_append, List.mem_cons, exists_eq_or_imp]
      rw [hl y (by simp), ih (fun z hz => hl z (by simp [hz]))]
  have main : ∀ n (h : Host), h.depth ≤ n → ∀ x, x ∈ h.leaves ↔ Leaf h x := by
    intro n
    induction n with
    | zero => intro h hn; cases h <;> simp [Host.depth] at hn
    | succ n ih =>
      intro h hn x
      have mem : ∀ l : List Host, Host.depthList l ≤ n → ∀ x ∈ l, x.depth ≤ n := by
        intro l
        induction l with
        | nil => simp
        | cons y t iht =>
          intro hl x hx
          simp only [Host.depthList] at hl
          rcases List.mem_cons.1 hx with rfl | hx
          · omega
          · exact iht (by omega) x hx
      cases h with
      | obj nm l =>
        rw [leaf_obj, Host.leaves]
        exact list l (fun y hy => ih y (mem l (by simp only [Host.depth] at hn; omega) y hy)) x
      | group nm l =>
        rw [leaf_group, Host.leaves]
        exact list l (fun y hy => ih y (mem l (by simp only [Host.depth] at hn; omega) y hy)) x
      | _ =>
        simp only [Host.leaves, List.mem_singleton]
        constructor
        · rintro rfl; constructor
        · intro h; cases h; rfl
  exact main h.depth h (Nat.le_refl _) x

/-- **C96.**  `a & b` raises RecursionError under every recursion limit iff, going through the leaves of `a` in order and for
a wildcard through the leaves of `b` in order, a pair of two wildcards is met before anything matches: the leaves of `a` in front
of the wildcard do not match `b`, and the wildcard does not match the leaves of `b` in front of the other one.  In every other case
`a & b` returns a boolean, the same one under every large enough recursion limit. -/
theorem C96_diverges_exactly (a b : Host) :
    (Diverges a b ↔ ∃ A x w A' B y v B', a.leaves = A ++ .wild x w :: A' ∧ b.leaves = B ++ .wild y v :: B' ∧
      (∀ l ∈ A, Returns l b false) ∧ ∀ l ∈ B, Returns (.wild x w) l false) ∧
    (¬ Diverges a b → ∃ r, Returns a b r) := by
  refine ⟨?_, fun h => (dich a b).resolve_left h⟩
  have left : Diverges a b ↔ ∃ A x A', a.leaves = A ++ x :: A' ∧ (∀ l ∈ A, Returns l b false) ∧ Diverges x b := by
    refine (leaves_of (Diverges · b) (Returns · b false) a fun nm l => ?_).1
    have h1 := loop_iff (.obj nm l) b l 1 zero (fun n => by rw [meet])
    have h2 := loop_iff (.group nm l) b l 1 zero (fun n => by rw [meet])
    exact ⟨h1.1, h1.2, h2.1, h2.2⟩
  have right : ∀ x w, Diverges (.wild x w) b ↔ ∃ B y B', b.leaves = B ++ y :: B' ∧ (∀ l ∈ B, Returns (.wild x w) l false) ∧
      Diverges (.wild x w) y := by
    intro x w
    refine (leaves_of (Diverges (.wild x w) ·) (Returns (.wild x w) · false) b fun nm l => ?_).1
    have h1 := loop_iff (.obj nm l) (.wild x w) l 1 zero (fun n => by rw [meet])
    have h2 := loop_iff (.group nm l) (.wild x w) l 1 zero (fun n => by rw [meet])
    simp only [(wild_comm x w _).1, (wild_comm x w _).2]
    exact ⟨h1.1, h1.2, h2.1, h2.2⟩
  have wildLeaf : ∀ (h x c : Host), x ∈ h.leaves → Diverges x c ∨ Diverges c x → ∃ p q, x = .wild p q := by
    intro h x c hx hd
    have hl : IsLeaf x := Leaf.isLeaf ((mem_leaves h x).1 hx)
    by_cases hw : ∃ p q, x = .wild p q
    · exact hw
    exfalso
    have hn : ¬ HasWild x := by
      rintro ⟨p, q, h⟩
      exact hw ⟨p, q, (isLeaf_unique hl h).symm⟩
    rcases hd with hd | hd
    · obtain ⟨r, hr⟩ := C05_terminates_partial x c (fun h => hn h.1)
      exact not_both hd ⟨_, hr⟩
    · obtain ⟨r, hr⟩ := C05_terminates_partial c x (fun h => hn h.2)
      exact not_both hd ⟨_, hr⟩
  rw [left]
  constructor
  · rintro ⟨A, x, A', e, h1, h2⟩
    obtain ⟨p, q, rfl⟩ := wildLeaf a x b (by rw [e]; simp) (Or.inl h2)
    obtain ⟨B, y, B', e', h3, h4⟩ := (right p q).1 h2
    obtain ⟨u, v, rfl⟩ := wildLeaf b y (.wild p q) (by rw [e']; simp) (Or.inr h4)
    exact ⟨A, p, q, A', B, u, v, B', e, e', h1, h3⟩
  · rintro ⟨A, p, q, A', B, u, v, B', e, e', h1, h3⟩
    exact ⟨A, _, A', e, h1, (right p q).2 ⟨B, _, B', e', h3, fun fuel => C05_violated p q u v fuel⟩⟩

/-- A group with a network in front of a wildcard against one with a wildcard: it depends on the network whether it terminates. -/
theorem C96_sample :
    Diverges (.group "g" [.net ⟨.v4, 0x0A000000, 8⟩, .wild 0x0A000000 0xFF]) (.obj "o" [.wild 0x0B000000 0xFF]) ∧
    ¬ Diverges (.group "g" [.net ⟨.v4, 0x0A000000, 8⟩, .wild 0x0A000000 0xFF]) (.obj "o" [.wild 0x0A000000 0xFF]) := by
  constructor
  · refine (C96_diverges_exactly _ _).1.2 ⟨[.net ⟨.v4, 0x0A000000, 8⟩], 0x0A000000, 0xFF, [], [], 0x0B000000, 0xFF, [], ?_, ?_, ?_, ?_⟩
    · simp [Host.leaves, Host.leavesList]
    · simp [Host.leaves, Host.leavesList]
    · intro l hl
      cases List.mem_singleton.1 hl
      exact returns_of (n := 5) (by rfl)
    · simp
  · intro h
    have : meet 5 (.group "g" [.net ⟨.v4, 0x0A000000, 8⟩, .wild 0x0A000000 0xFF]) (.obj "o" [.wild 0x0A000000 0xFF]) = .ok true := by rfl
    rw [h 5] at this
    cases this

end Acltk
