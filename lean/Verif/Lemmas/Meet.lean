import Verif.Spec.HostSpec
import Verif.Lemmas.Bits
namespace Acltk

section cov
variable {x : Addr}
theorem covers_net {n : Net} : Covers (.net n) x ↔ n.Denotes x :=
  ⟨fun h => by cases h; assumption, .net⟩
theorem covers_host {a : Addr} : Covers (.host a) x ↔ x = a :=
  ⟨fun h => by cases h; rfl, fun h => by subst h; exact .host⟩
theorem covers_wild {a w : Nat} : Covers (.wild a w) x ↔ x.ver = .v4 ∧ x.ip < 2^32 ∧ AgreesOff a w x.ip :=
  ⟨fun h => by cases h; exact ⟨rfl, by assumption, by assumption⟩,
   fun h => by obtain ⟨v, i⟩ := x; obtain ⟨rfl, h1, h2⟩ := h; exact .wild h2 h1⟩
theorem covers_any : Covers .any x ↔ x.Valid :=
  ⟨fun h => by cases h; assumption, .any⟩
theorem covers_iface {nm} : Covers (.iface nm) x ↔ x.Valid :=
  ⟨fun h => by cases h; assumption, .iface⟩
theorem covers_any4 : Covers .any4 x ↔ x.ver = .v4 ∧ x.Valid :=
  ⟨fun h => by cases h; exact ⟨rfl, by assumption⟩,
   fun h => by obtain ⟨v, i⟩ := x; obtain ⟨rfl, h1⟩ := h; exact .any4 h1⟩
theorem covers_any6 : Covers .any6 x ↔ x.ver = .v6 ∧ x.Valid :=
  ⟨fun h => by cases h; exact ⟨rfl, by assumption⟩,
   fun h => by obtain ⟨v, i⟩ := x; obtain ⟨rfl, h1⟩ := h; exact .any6 h1⟩
theorem covers_obj {nm l} : Covers (.obj nm l) x ↔ ∃ h ∈ l, Covers h x :=
  ⟨fun h => by cases h with | obj hm hc => exact ⟨_, hm, hc⟩, fun ⟨_, hm, hc⟩ => .obj hm hc⟩
theorem covers_group {nm l} : Covers (.group nm l) x ↔ ∃ h ∈ l, Covers h x :=
  ⟨fun h => by cases h with | group hm hc => exact ⟨_, hm, hc⟩, fun ⟨_, hm, hc⟩ => .group hm hc⟩
theorem not_covers_cafAny : ¬ Covers .cafAny x := nofun
theorem not_covers_cafAny4 : ¬ Covers .cafAny4 x := nofun
theorem not_covers_cafAny6 : ¬ Covers .cafAny6 x := nofun
end cov

theorem leaf_obj {nm l x} : Leaf (.obj nm l) x ↔ ∃ h ∈ l, Leaf h x :=
  ⟨fun h => by cases h with | obj hm hc => exact ⟨_, hm, hc⟩, fun ⟨_, hm, hc⟩ => .obj hm hc⟩
theorem leaf_group {nm l x} : Leaf (.group nm l) x ↔ ∃ h ∈ l, Leaf h x :=
  ⟨fun h => by cases h with | group hm hc => exact ⟨_, hm, hc⟩, fun ⟨_, hm, hc⟩ => .group hm hc⟩

/-- Not a group and not a network object. -/
def IsLeaf (h : Host) : Prop := Leaf h h

theorem Leaf.isLeaf {h l : Host} (hl : Leaf h l) : IsLeaf l := by
  induction hl with
  | obj _ _ ih => exact ih
  | group _ _ ih => exact ih
  | _ => constructor

theorem isLeaf_unique {h l : Host} (hh : IsLeaf h) (hl : Leaf h l) : l = h := by
  cases h <;> first | (cases hl; rfl) | skip
  · exfalso; generalize e : Host.obj _ _ = o at hh
    have : ∀ o l, Leaf o l → ∀ nm m, l ≠ .obj nm m := by
      intro o l hl; induction hl <;> simp_all
    exact this _ _ hh _ _ e.symm
  · exfalso; generalize e : Host.group _ _ = o at hh
    have : ∀ o l, Leaf o l → ∀ nm m, l ≠ .group nm m := by
      intro o l hl; induction hl <;> simp_all
    exact this _ _ hh _ _ e.symm

theorem not_isLeaf_obj {nm l} : ¬ IsLeaf (.obj nm l) := by
  intro hh
  have : ∀ o l, Leaf o l → ∀ nm m, l ≠ .obj nm m := by
    intro o l hl; induction hl <;> simp_all
  exact this _ _ hh _ _ rfl

theorem not_isLeaf_group {nm l} : ¬ IsLeaf (.group nm l) := by
  intro hh
  have : ∀ o l, Leaf o l → ∀ nm m, l ≠ .group nm m := by
    intro o l hl; induction hl <;> simp_all
  exact this _ _ hh _ _ rfl

/-! ### wildcards against IPv4 hosts and networks -/

theorem andNot_eq_iff (x a w : Nat) : andNot x w = andNot a w ↔ AgreesOff a w x := by
  constructor
  · intro h i hi
    have := congrArg (fun n => n.testBit i) h
    simpa [testBit_andNot, hi] using this
  · intro h
    apply Nat.eq_of_testBit_eq; intro i
    rw [testBit_andNot, testBit_andNot]
    cases hi : w.testBit i
    · rw [h i hi]
    · simp

theorem wildHost_iff (a w : Nat) (y : Addr) : wildHost a w y = true ↔ AgreesOff a w y.ip := by
  unfold wildHost; rw [beq_iff_eq, andNot_eq_iff]

/-- The formula acltk uses for wildcard against network is exact: it holds iff some address of
the network agrees with the wildcard's address off the wildcard bits. -/
theorem wildNet_iff (a w : Nat) (n : Net) (hn : n.Valid) (ha : a < 2 ^ n.ver.width) :
    wildNet a w n = true ↔ ∃ x : Addr, n.Denotes x ∧ AgreesOff a w x.ip := by
  unfold wildNet
  rw [beq_iff_eq]
  constructor
  · intro h
    let y : Addr := ⟨n.ver, n.addr ||| (a &&& n.hostmask)⟩
    have hy : y.ip < 2 ^ n.ver.width := by
      apply Nat.or_lt_two_pow hn.2.1
      exact Nat.lt_of_le_of_lt Nat.and_le_left ha
    have haddr : ∀ i, n.addr.testBit i = (n.addr.testBit i && n.netmask.testBit i) := by
      intro i; rw [← Nat.testBit_and, hn.2.2]
    refine ⟨y, (containsAddr_iff n hn y hy).1 ?_, ?_⟩
    · unfold Net.containsAddr
      simp only [y, ne_eq, not_true_eq_false, if_false, beq_iff_eq]
      apply Nat.eq_of_testBit_eq; intro i
      have h1 := haddr i
      simp only [Nat.testBit_and, Nat.testBit_or, testBit_hostmask n hn.1]
      have h2 : n.netmask.testBit i = true → ¬ i < n.ver.width - n.plen := by
        unfold Net.netmask; rw [testBit_maskOf]; simp; omega
      cases hm : n.netmask.testBit i
      · rw [hm] at h1; simpa using h1.symm
      · simp [h2 hm]
    · intro i hi
      have h3 := congrArg (fun n => n.testBit i) h
      simp only [testBit_andNot, hi, Nat.testBit_and, Bool.not_false, Bool.and_true] at h3
      have h1 := haddr i
      simp only [y, Nat.testBit_or, Nat.testBit_and, testBit_hostmask n hn.1]
      cases hm : n.netmask.testBit i
      · rw [hm] at h1 h3
        simp only [Bool.and_false] at h1
        rw [h1]
        simp only [Bool.false_or]
        unfold Net.netmask at hm; rw [testBit_maskOf] at hm
        by_cases hlt : i < n.ver.width
        · have : i < n.ver.width - n.plen := by
            simp only [hlt, true_and, decide_eq_false_iff_not] at hm; omega
          simp [this]
        · rw [testBit_ge ha (by omega)]; simp
      · rw [hm] at h3
        have h2 : ¬ i < n.ver.width - n.plen := by
          unfold Net.netmask at hm; rw [testBit_maskOf] at hm
          simp only [decide_eq_true_eq] at hm; omega
        simp [h2, h3]
  · rintro ⟨x, hx, hagree⟩
    have hc := (containsAddr_iff n hn x (Net.Denotes.valid hn hx)).2 hx
    unfold Net.containsAddr at hc
    have hv : n.ver = x.ver := hx.1.symm
    simp only [hv, ne_eq, not_true_eq_false, if_false, beq_iff_eq] at hc
    apply Nat.eq_of_testBit_eq; intro i
    rw [testBit_andNot, testBit_andNot, ← hc, Nat.testBit_and, Nat.testBit_and]
    cases hi : w.testBit i
    · rw [hagree i hi]
    · simp

/-! ### `loopAny` -/

theorem loopAny_spec {α : Type} (f : α → Py Bool) (P : α → Prop) (l : List α)
    (h : ∀ x ∈ l, ∃ r, f x = .ok r ∧ (r = true ↔ P x)) :
    ∃ r, loopAny f l = .ok r ∧ (r = true ↔ ∃ x ∈ l, P x) := by
  induction l with
  | nil => exact ⟨false, rfl, by simp⟩
  | cons x xs ih =>
    obtain ⟨r, hr, hp⟩ := h x (by simp)
    obtain ⟨rs, hrs, hps⟩ := ih (fun y hy => h y (by simp [hy]))
    unfold loopAny
    rw [hr]
    cases r with
    | true => exact ⟨true, rfl, by simp [hp.1 rfl]⟩
    | false =>
      refine ⟨rs, hrs, ?_⟩
      have : ¬ P x := fun hx => by simpa using hp.2 hx
      simp [hps, this]

/-! ### depth -/

theorem depth_pos (h : Host) : 1 ≤ h.depth := by cases h <;> simp [Host.depth]

theorem depth_mem {l : List Host} {h : Host} (hm : h ∈ l) : h.depth ≤ Host.depthList l := by
  induction l with
  | nil => cases hm
  | cons a t ih =>
    unfold Host.depthList
    cases hm with
    | head => exact Nat.le_max_left _ _
    | tail _ hm => exact Nat.le_trans (ih hm) (Nat.le_max_right _ _)

/-! ### the specification of `a & b` -/

/-- What `a & b` computes: the left side contains an `any`/interface leaf, or some address is
on both sides. -/
def Meets (a b : Host) : Prop := HasAny a ∨ ∃ x, Covers a x ∧ Covers b x

/-- The pairs the characterisation applies to: ordinary hosts, wildcards on at most one side
and not against IPv6 members. -/
structure Compat (a b : Host) : Prop where
  left : Ordinary a
  right : Ordinary b
  oneWild : ¬ (HasWild a ∧ HasWild b)
  noV6r : ¬ (HasWild a ∧ HasV6 b)
  noV6l : ¬ (HasWild b ∧ HasV6 a)

theorem Compat.symm {a b} (h : Compat a b) : Compat b a :=
  ⟨h.right, h.left, fun ⟨x, y⟩ => h.oneWild ⟨y, x⟩, h.noV6l, h.noV6r⟩

theorem Ordinary.mono {a b : Host} (hb : Ordinary b) (hl : ∀ l, Leaf a l → Leaf b l) : Ordinary a :=
  fun l h => hb l (hl l h)

theorem Compat.mono {a a' b : Host} (h : Compat a b) (hl : ∀ l, Leaf a' l → Leaf a l) :
    Compat a' b where
  left := h.left.mono hl
  right := h.right
  oneWild := fun ⟨⟨x, y, hw⟩, hb⟩ => h.oneWild ⟨⟨x, y, hl _ hw⟩, hb⟩
  noV6r := fun ⟨⟨x, y, hw⟩, hb⟩ => h.noV6r ⟨⟨x, y, hl _ hw⟩, hb⟩
  noV6l := fun ⟨hb, hv⟩ => h.noV6l ⟨hb, hv.elim
    (fun ⟨a, e, ha⟩ => .inl ⟨a, e, hl _ ha⟩) (fun ⟨a, e, ha⟩ => .inr ⟨a, e, hl _ ha⟩)⟩

theorem hasAny_leaf {a : Host} (ha : IsLeaf a) : HasAny a ↔ (a = .any ∨ ∃ nm, a = .iface nm) := by
  unfold HasAny
  constructor
  · rintro (h | ⟨nm, h⟩)
    · exact .inl (isLeaf_unique ha h).symm
    · exact .inr ⟨nm, (isLeaf_unique ha h).symm⟩
  · rintro (h | ⟨nm, h⟩)
    · subst h; exact .inl .any
    · subst h; exact .inr ⟨nm, .iface⟩

/-- Every ordinary leaf denotes at least one address. -/
theorem leaf_inhabited {a : Host} (ha : IsLeaf a) (ho : Ordinary a) : ∃ x, x.Valid ∧ Covers a x := by
  have hv := ho a ha
  cases a with
  | net n => exact ⟨_, Net.Denotes.valid hv.1 hv.1.denotes_self, .net hv.1.denotes_self⟩
  | host a => exact ⟨a, hv.1, .host⟩
  | wild a w => exact ⟨⟨.v4, a⟩, hv.1.1, .wild (fun _ _ => rfl) hv.1.1⟩
  | any => exact ⟨⟨.v4, 0⟩, by decide, .any (by decide)⟩
  | any4 => exact ⟨⟨.v4, 0⟩, by decide, .any4 (by decide)⟩
  | any6 => exact ⟨⟨.v6, 0⟩, by decide, .any6 (by decide)⟩
  | iface _ => exact ⟨⟨.v4, 0⟩, by decide, .iface (by decide)⟩
  | obj => exact (not_isLeaf_obj ha).elim
  | group => exact (not_isLeaf_group ha).elim
  | cafAny => simp at hv
  | cafAny4 => simp at hv
  | cafAny6 => simp at hv

theorem covers_valid {a : Host} (ho : Ordinary a) {x : Addr} (h : Covers a x) : x.Valid := by
  induction h with
  | net h => exact Net.Denotes.valid (ho _ .net).1 h
  | host => exact (ho _ .host).1
  | wild _ h => exact h
  | any h => exact h
  | any4 h => exact h
  | any6 h => exact h
  | iface h => exact h
  | obj hm _ ih => exact ih (ho.mono fun l hl => .obj hm hl)
  | group hm _ ih => exact ih (ho.mono fun l hl => .group hm hl)

end Acltk
