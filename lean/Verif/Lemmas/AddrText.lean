import Verif.Spec.AddrTextSpec
import Verif.Lemmas.Ipv6Text
/-!
# Reading IPv6 texts: lemmas for C64
-/
namespace Acltk

theorem hexDigit_iff (c : Char) (d : Nat) : HexDigit c d ↔ isHexDigit c = true ∧ hexVal c = d := by
  constructor
  · rintro ⟨hd, h⟩
    have key : ∀ d : Fin 16, ∀ c : Char,
        (c = "0123456789abcdef".toList.getD d.val ' ' ∨ c = "0123456789ABCDEF".toList.getD d.val ' ') →
        isHexDigit c = true ∧ hexVal c = d.val := by
      intro d c hc
      rcases hc with rfl | rfl
      · revert d; decide
      · revert d; decide
    exact key ⟨d, hd⟩ c h
  · rintro ⟨h, rfl⟩
    refine ⟨hexVal_lt h, ?_⟩
    have e : c = Char.ofNat c.toNat := by simp
    have hr : (48 ≤ c.toNat ∧ c.toNat ≤ 57) ∨ (97 ≤ c.toNat ∧ c.toNat ≤ 102) ∨
        (65 ≤ c.toNat ∧ c.toNat ≤ 70) := by
      simp only [isHexDigit, Char.isDigit, Bool.or_eq_true, Bool.and_eq_true, decide_eq_true_eq,
        Char.le_def, UInt32.le_iff_toNat_le] at h
      have e3 : c.toNat = c.val.toNat := rfl
      have e1 : 'a'.val.toNat = 97 := rfl
      have e2 : 'f'.val.toNat = 102 := rfl
      have e4 : 'A'.val.toNat = 65 := rfl
      have e5 : 'F'.val.toNat = 70 := rfl
      have e6 : '0'.val.toNat = 48 := rfl
      have e7 : '9'.val.toNat = 57 := rfl
      rw [e3]
      have e8 : (48 : UInt32).toNat = 48 := rfl
      have e9 : (57 : UInt32).toNat = 57 := rfl
      omega
    generalize c.toNat = n at e hr
    subst e
    have key : ∀ n : Fin 103, ((48 ≤ n.val ∧ n.val ≤ 57) ∨ (97 ≤ n.val ∧ n.val ≤ 102) ∨
        (65 ≤ n.val ∧ n.val ≤ 70)) →
        (Char.ofNat n.val = "0123456789abcdef".toList.getD (hexVal (Char.ofNat n.val)) ' ' ∨
         Char.ofNat n.val = "0123456789ABCDEF".toList.getD (hexVal (Char.ofNat n.val)) ' ') := by
      decide +kernel
    exact key ⟨n, by omega⟩ hr

theorem parseHextet_iff (s : List Char) (n : Nat) : parseHextet s = some n ↔ Group16 s n := by
  constructor
  · intro h
    unfold parseHextet at h
    split at h; · simp at h
    rename_i h1
    split at h; · simp at h
    rename_i h2
    split at h; · simp at h
    rename_i h3
    simp only [Option.some.injEq] at h
    simp only [Bool.not_eq_true, Bool.not_eq_false] at h1
    subst h
    have key : ∀ k, ∀ s : List Char, s.length = k → s.all isHexDigit = true → s.length ≤ 4 → s ≠ [] →
        Group16 s (s.foldl (fun acc c => acc * 16 + hexVal c) 0) := by
      intro k
      induction k with
      | zero => intro s hl _ _ hn; exact absurd (List.length_eq_zero_iff.1 hl) hn
      | succ k ih =>
        intro s hl ha h4 hn
        rcases eq_nil_or_snoc s with rfl | ⟨t, c, rfl⟩
        · exact absurd rfl hn
        · simp only [List.all_append, List.all_cons, List.all_nil, Bool.and_true,
            Bool.and_eq_true] at ha
          rw [List.foldl_append]
          simp only [List.foldl_cons, List.foldl_nil]
          by_cases ht : t = []
          · subst ht
            simp only [List.foldl_nil, Nat.zero_mul, Nat.zero_add, List.nil_append]
            exact .one _ _ ((hexDigit_iff _ _).2 ⟨ha.2, rfl⟩)
          · simp only [List.length_append, List.length_cons, List.length_nil] at hl h4
            rw [Nat.mul_comm]
            exact .more _ _ _ _ (ih t (by omega) ha.1 (by omega) ht) (by omega)
              ((hexDigit_iff _ _).2 ⟨ha.2, rfl⟩)
    exact key _ s rfl h1 (by omega) (by intro e; apply h3; simp [e])
  · intro h
    induction h with
    | one c d hd =>
      obtain ⟨h1, h2⟩ := (hexDigit_iff _ _).1 hd
      simp [parseHextet, h1, h2]
    | more s n c d hg hl hd ih =>
      obtain ⟨h1, h2⟩ := (hexDigit_iff _ _).1 hd
      unfold parseHextet at ih ⊢
      split at ih; · simp at ih
      rename_i ha
      split at ih; · simp at ih
      split at ih; · simp at ih
      rename_i he
      simp only [Option.some.injEq] at ih
      simp only [Bool.not_eq_true, Bool.not_eq_false] at ha
      rw [if_neg, if_neg, if_neg]
      · simp [List.foldl_append, ih, h2, Nat.mul_comm]
      · simp
      · simp; omega
      · simp only [List.all_append, ha, List.all_cons, h1, List.all_nil]; simp

/-- The texts are groups with these numbers. -/
inductive GroupList : List (List Char) → List Nat → Prop
  | nil : GroupList [] []
  | cons {s n t ns} : Group16 s n → GroupList t ns → GroupList (s :: t) (n :: ns)

theorem GroupList.length {ps ns} (h : GroupList ps ns) : ps.length = ns.length := by
  induction h with
  | nil => rfl
  | cons _ _ ih => simp [ih]

theorem GroupList.append {ps ns qs ms} (h : GroupList ps ns) (h' : GroupList qs ms) :
    GroupList (ps ++ qs) (ns ++ ms) := by
  induction h with
  | nil => exact h'
  | cons h _ ih => exact .cons h ih

theorem GroupList.split {ps qs ns} (h : GroupList (ps ++ qs) ns) :
    ∃ a b, ns = a ++ b ∧ GroupList ps a ∧ GroupList qs b := by
  induction ps generalizing ns with
  | nil => exact ⟨[], ns, rfl, .nil, h⟩
  | cons p ps ih =>
    cases h with
    | cons h1 h2 =>
      obtain ⟨a, b, rfl, ha, hb⟩ := ih h2
      exact ⟨_ :: a, b, rfl, .cons h1 ha, hb⟩

theorem Group16.ne_nil {s n} (h : Group16 s n) : s ≠ [] := by
  cases h with
  | one => simp
  | more => simp

theorem Group16.hex {s n} (h : Group16 s n) : ∀ c ∈ s, isHexDigit c = true := by
  have := (parseHextet_iff s n).2 h
  unfold parseHextet at this
  split at this; · simp at this
  rename_i h1
  intro c hc
  simp only [Bool.not_eq_true, Bool.not_eq_false] at h1
  exact List.all_eq_true.1 h1 c hc

theorem Group16.no {s n} (h : Group16 s n) {c : Char} (hc : isHexDigit c = false) : c ∉ s := by
  intro hm; rw [h.hex c hm] at hc; cases hc

theorem Group16.unique {s n m} (h : Group16 s n) (h' : Group16 s m) : n = m := by
  have h1 := (parseHextet_iff _ _).2 h
  have h2 := (parseHextet_iff _ _).2 h'
  rw [h1] at h2; simpa using h2

theorem GroupList.no {ps ns} (h : GroupList ps ns) {c : Char} (hc : isHexDigit c = false) :
    ∀ p ∈ ps, c ∉ p := by
  induction h with
  | nil => simp
  | cons h _ ih =>
    intro p hp
    rcases List.mem_cons.1 hp with rfl | hp
    · exact h.no hc
    · exact ih p hp

theorem GroupList.ne_nil {ps ns} (h : GroupList ps ns) : ∀ p ∈ ps, p ≠ [] := by
  induction h with
  | nil => simp
  | cons h _ ih =>
    intro p hp
    rcases List.mem_cons.1 hp with rfl | hp
    · exact h.ne_nil
    · exact ih p hp

theorem groupsValue_append (a b : List Nat) :
    groupsValue (a ++ b) = groupsValue a * 65536 ^ b.length + groupsValue b := by
  induction a with
  | nil => simp [groupsValue]
  | cons x t ih =>
    simp only [List.cons_append, groupsValue, ih, List.length_append, Nat.pow_add, Nat.add_mul,
      Nat.mul_assoc]
    omega

theorem groupsValue_zeros (k : Nat) : groupsValue (List.replicate k 0) = 0 := by
  induction k with
  | zero => rfl
  | succ k ih => simp [List.replicate_succ, groupsValue, ih]

theorem parseHextets_iff (ps : List (List Char)) (acc r : Nat) :
    parseHextets acc ps = some r ↔
      ∃ ns, GroupList ps ns ∧ r = acc * 65536 ^ ns.length + groupsValue ns := by
  induction ps generalizing acc with
  | nil =>
    simp only [parseHextets, Option.some.injEq]
    constructor
    · rintro rfl; exact ⟨[], .nil, by simp [groupsValue]⟩
    · rintro ⟨ns, h, rfl⟩; cases h; simp [groupsValue]
  | cons p t ih =>
    unfold parseHextets
    rw [show (2 : Nat) ^ 16 = 65536 from rfl]
    constructor
    · intro h
      split at h; · cases h
      rename_i x hx
      obtain ⟨ns, h1, rfl⟩ := (ih _).1 h
      refine ⟨x :: ns, .cons ((parseHextet_iff _ _).1 hx) h1, ?_⟩
      simp only [List.length_cons, groupsValue, Nat.pow_succ, Nat.add_mul, Nat.mul_assoc]
      rw [Nat.mul_comm (65536 ^ ns.length) 65536]
      omega
    · rintro ⟨ns, h, rfl⟩
      cases h with
      | cons h1 h2 =>
        rename_i n ns
        rw [(parseHextet_iff _ _).2 h1]
        refine (ih _).2 ⟨ns, h2, ?_⟩
        simp only [List.length_cons, groupsValue, Nat.pow_succ, Nat.add_mul, Nat.mul_assoc]
        rw [Nat.mul_comm (65536 ^ ns.length) 65536]
        omega

/-- An end of the text next to `::`: empty, or groups. -/
def pad (l : List (List Char)) : List (List Char) := if l = [] then [[]] else l

/-- The reading of the pieces between the colons. -/
inductive PartsRead (parts : List (List Char)) (n : Nat) : Prop
  | full (ns) : GroupList parts ns → ns.length = 8 → n = groupsValue ns → PartsRead parts n
  | short (hp lp hs ls) : parts = pad hp ++ [] :: pad lp → GroupList hp hs → GroupList lp ls →
      hs.length + ls.length ≤ 7 →
      n = groupsValue (hs ++ List.replicate (8 - (hs.length + ls.length)) 0 ++ ls) → PartsRead parts n

theorem mem_emptyInner {parts : List (List Char)} {i : Nat} :
    i ∈ emptyInner parts ↔ 1 ≤ i ∧ i + 1 < parts.length ∧ parts[i]? = some [] := by
  unfold emptyInner
  rw [List.mem_filter, List.mem_range]
  constructor
  · rintro ⟨h1, h2⟩
    simp only [Bool.and_eq_true, decide_eq_true_eq, List.isEmpty_iff] at h2
    refine ⟨h2.1.1, h2.1.2, ?_⟩
    rw [List.getD_eq_getElem?_getD, List.getElem?_eq_getElem h1] at h2
    rw [List.getElem?_eq_getElem h1]
    simpa using h2.2
  · rintro ⟨h1, h2, h3⟩
    refine ⟨by omega, ?_⟩
    simp [h1, h2, List.getD_eq_getElem?_getD, h3]

theorem nodup_emptyInner (parts : List (List Char)) : (emptyInner parts).Nodup :=
  List.Nodup.sublist List.filter_sublist List.nodup_range

theorem pad_length (l : List (List Char)) : 1 ≤ (pad l).length := by
  unfold pad; split
  · simp
  · rename_i h; exact List.length_pos_iff.2 h

theorem emptyInner_short {hp lp hs ls} (h1 : GroupList hp hs) (h2 : GroupList lp ls) :
    emptyInner (pad hp ++ [] :: pad lp) = [(pad hp).length] := by
  have hmem : ∀ i, i ∈ emptyInner (pad hp ++ [] :: pad lp) ↔ i = (pad hp).length := by
    intro i
    rw [mem_emptyInner]
    have l1 := pad_length hp
    have l2 := pad_length lp
    constructor
    · rintro ⟨a, b, c⟩
      rcases Nat.lt_trichotomy i (pad hp).length with h | h | h
      · exfalso
        rw [List.getElem?_append_left h] at c
        unfold pad at h c
        split at c
        · rename_i e; simp only [e, if_true, List.length_singleton] at h; omega
        · exact h1.ne_nil _ (List.mem_of_getElem? c) rfl
      · exact h
      · exfalso
        rw [List.getElem?_append_right (by omega)] at c
        obtain ⟨j, hj⟩ : ∃ j, i - (pad hp).length = j + 1 := ⟨i - (pad hp).length - 1, by omega⟩
        rw [hj, List.getElem?_cons_succ] at c
        have hjl : j + 1 < (pad lp).length := by
          simp only [List.length_append, List.length_cons] at b; omega
        unfold pad at hjl c
        split at c
        · rename_i e; simp only [e, if_true, List.length_singleton] at hjl; omega
        · exact h2.ne_nil _ (List.mem_of_getElem? c) rfl
    · rintro rfl
      refine ⟨l1, by simp; omega, by simp⟩
  have hnd := nodup_emptyInner (pad hp ++ [] :: pad lp)
  generalize emptyInner (pad hp ++ [] :: pad lp) = l at hmem hnd
  cases l with
  | nil => have := (hmem (pad hp).length).2 rfl; simp at this
  | cons a t =>
    have ha := (hmem a).1 (by simp)
    cases t with
    | nil => rw [ha]
    | cons b t =>
      have hb := (hmem b).1 (by simp)
      rw [ha, hb] at hnd; simp at hnd

theorem emptyInner_groups {parts ns} (h : GroupList parts ns) : emptyInner parts = [] := by
  rw [List.eq_nil_iff_forall_not_mem]
  intro i hi
  rw [mem_emptyInner] at hi
  exact h.ne_nil _ (List.mem_of_getElem? hi.2.2) rfl

theorem head_pad {hp hs} (h : GroupList hp hs) (t : List (List Char)) :
    (((pad hp ++ t).head?).getD []).isEmpty = hp.isEmpty := by
  cases h with
  | nil => simp [pad]
  | cons h1 h2 =>
    have := h1.ne_nil
    simp [pad, this]

theorem getLast?_append_ne {α : Type} (t : List α) {l : List α} (h : l ≠ []) :
    (t ++ l).getLast? = l.getLast? := by
  rw [List.getLast?_append, List.getLast?_eq_some_getLast h]; rfl

theorem last_pad {lp ls} (h : GroupList lp ls) (t : List (List Char)) :
    (((t ++ pad lp).getLast?).getD []).isEmpty = lp.isEmpty := by
  have hn : pad lp ≠ [] := by intro e; have := pad_length lp; rw [e] at this; simp at this
  rw [getLast?_append_ne _ hn]
  unfold pad
  split
  · rename_i e; simp [e]
  · rename_i e
    rw [List.getLast?_eq_some_getLast e]
    have := h.ne_nil _ (List.getLast_mem e)
    rw [List.isEmpty_eq_false_iff.2 e]
    exact List.isEmpty_eq_false_iff.2 this

theorem parseV6Parts_of_read {parts n} (h : PartsRead parts n) : parseV6Parts parts = some n := by
  cases h with
  | full ns h1 h2 h3 =>
    have hl := h1.length
    unfold parseV6Parts
    rw [if_neg (by omega)]
    simp only [emptyInner_groups h1]
    have hne := h1.ne_nil
    have hp : parts ≠ [] := by intro e; rw [e] at hl; simp at hl; omega
    rw [if_neg (by omega), if_neg]
    · rw [parseHextets_iff]; exact ⟨ns, h1, by simp [h3]⟩
    · rw [List.head?_eq_some_head hp, List.getLast?_eq_some_getLast hp]
      have := hne _ (List.head_mem hp)
      have := hne _ (List.getLast_mem hp)
      simp_all
  | short hp lp hs ls h1 h2 h3 h4 h5 =>
    subst h1
    have l1 := h2.length
    have l2 := h3.length
    have p1 : (pad hp).length = if hp.isEmpty then 1 else hp.length := by
      unfold pad; split <;> simp_all
    have p2 : (pad lp).length = if lp.isEmpty then 1 else lp.length := by
      unfold pad; split <;> simp_all
    unfold parseV6Parts
    rw [if_neg]
    · simp only [emptyInner_short h2 h3]
      rw [show pad hp ++ [] :: pad lp = (pad hp ++ [[]]) ++ pad lp by simp] 
      rw [last_pad h3]
      rw [show (pad hp ++ [[]]) ++ pad lp = pad hp ++ ([[]] ++ pad lp) by simp]
      rw [head_pad h2]
      have e1 : (if hp.isEmpty = true then (pad hp).length - 1 else (pad hp).length) = hp.length := by
        rw [p1]; cases hp <;> simp
      have e2 : (if lp.isEmpty = true then
            (pad hp ++ ([[]] ++ pad lp)).length - (pad hp).length - 1 - 1
          else (pad hp ++ ([[]] ++ pad lp)).length - (pad hp).length - 1) = lp.length := by
        simp only [List.length_append, List.length_cons, List.length_nil, p2]
        cases lp <;> simp <;> omega
      rw [e1, e2]
      rw [if_neg, if_neg, if_neg]
      · have t1 : (pad hp ++ ([[]] ++ pad lp)).take hp.length = hp := by
          cases hp with
          | nil => simp
          | cons a t => simp [pad]
        have t2 : (pad hp ++ ([[]] ++ pad lp)).drop ((pad hp ++ ([[]] ++ pad lp)).length - lp.length)
            = lp := by
          cases lp with
          | nil => simp
          | cons a t =>
            have : pad (a :: t) = a :: t := by simp [pad]
            rw [this, ← List.append_assoc, List.length_append, Nat.add_sub_cancel]
            simp
        rw [t1, t2]
        have r1 : parseHextets 0 hp = some (groupsValue hs) :=
          (parseHextets_iff _ _ _).2 ⟨hs, h2, by simp⟩
        rw [r1]
        simp only
        rw [parseHextets_iff]
        refine ⟨ls, h3, ?_⟩
        rw [h5, groupsValue_append, groupsValue_append, groupsValue_zeros, List.length_replicate, l1,
          l2, Nat.pow_mul]
        simp
      · omega
      · cases lp <;> simp
      · cases hp <;> simp
    · simp only [List.length_append, List.length_cons, p1, p2]
      cases hp <;> cases lp <;> simp at l1 l2 ⊢ <;> omega

theorem read_of_parseV6Parts {parts n} (h : parseV6Parts parts = some n) : PartsRead parts n := by
  unfold parseV6Parts at h
  split at h; · cases h
  simp only at h
  split at h
  · cases h
  · rename_i skip hs
    have hm : skip ∈ emptyInner parts := by rw [hs]; simp
    rw [mem_emptyInner] at hm
    obtain ⟨k1, k2, k3⟩ := hm
    obtain ⟨hlt, hval⟩ := List.getElem?_eq_some_iff.1 k3
    have hsplit : parts = parts.take skip ++ [] :: parts.drop (skip + 1) := by
      rw [← hval, ← List.drop_eq_getElem_cons hlt, List.take_append_drop]
    generalize hA : parts.take skip = A at hsplit
    generalize hB : parts.drop (skip + 1) = B at hsplit
    have hAl : A.length = skip := by rw [← hA]; simp; omega
    have hBl : B.length = parts.length - skip - 1 := by rw [← hB]; simp; omega
    generalize hhi : (if (parts.head?.getD []).isEmpty = true then skip - 1 else skip) = hi at h
    generalize hlo : (if (parts.getLast?.getD []).isEmpty = true then parts.length - skip - 1 - 1
      else parts.length - skip - 1) = lo at h
    split at h; · cases h
    rename_i c1
    split at h; · cases h
    rename_i c2
    split at h; · cases h
    rename_i c3
    split at h; · cases h
    rename_i x hx
    have hfirst : (parts.head?.getD []).isEmpty = (A.head?.getD []).isEmpty := by
      rw [hsplit]
      cases A with
      | nil => simp at hAl; omega
      | cons a t => simp
    have hlast : (parts.getLast?.getD []).isEmpty = (B.getLast?.getD []).isEmpty := by
      have hBn : B ≠ [] := by intro e; rw [e] at hBl; simp at hBl; omega
      rw [hsplit, show A ++ [] :: B = (A ++ [[]]) ++ B by simp, getLast?_append_ne _ hBn]
    rw [hfirst] at hhi c1
    rw [hlast] at hlo c2
    subst hhi; subst hlo
    -- the two ends
    obtain ⟨hp, hA', hhp⟩ : ∃ hp, A = pad hp ∧
        (if (A.head?.getD []).isEmpty = true then skip - 1 else skip) = hp.length := by
      by_cases e : (A.head?.getD []).isEmpty = true
      · simp only [e, if_true, not_and, Decidable.not_not] at c1 ⊢
        have : skip = 1 := by have := c1 trivial; omega
        refine ⟨[], ?_, by simp; omega⟩
        match A, hAl, e with
        | [a], _, e => simp at e; simp [pad, e]
        | [], hl, _ => simp at hl; omega
        | _ :: _ :: _, hl, _ => simp at hl; omega
      · simp only [e, if_false, Bool.false_eq_true] at c1 ⊢
        refine ⟨A, ?_, by simp [hAl]⟩
        unfold pad
        rw [if_neg]
        intro e'; rw [e'] at hAl; simp at hAl; omega
    obtain ⟨lp, hB', hlp⟩ : ∃ lp, B = pad lp ∧
        (if (B.getLast?.getD []).isEmpty = true then parts.length - skip - 1 - 1
          else parts.length - skip - 1) = lp.length := by
      by_cases e : (B.getLast?.getD []).isEmpty = true
      · simp only [e, if_true, not_and, Decidable.not_not] at c2 ⊢
        have : B.length = 1 := by have := c2 trivial; omega
        refine ⟨[], ?_, by simp; omega⟩
        match B, this, e with
        | [a], _, e => simp at e; simp [pad, e]
      · simp only [e, if_false, Bool.false_eq_true] at c2 ⊢
        refine ⟨B, ?_, by simp [hBl]⟩
        unfold pad
        rw [if_neg]
        intro e'; rw [e'] at hBl; simp at hBl; omega
    rw [hhp, hlp] at c3 h
    rw [hhp] at hx
    have t1 : parts.take hp.length = hp := by
      rw [hsplit, hA']
      cases hp with
      | nil => simp
      | cons a t => simp [pad]
    have t2 : parts.drop (parts.length - lp.length) = lp := by
      rw [hsplit, hB']
      cases lp with
      | nil => simp
      | cons a t =>
        have : pad (a :: t) = a :: t := by simp [pad]
        rw [this, show A ++ [] :: a :: t = (A ++ [[]]) ++ a :: t by simp, List.length_append,
          Nat.add_sub_cancel]
        simp
    rw [t1] at hx
    rw [t2] at h
    obtain ⟨hs', g1, rfl⟩ := (parseHextets_iff _ _ _).1 hx
    obtain ⟨ls', g2, rfl⟩ := (parseHextets_iff _ _ _).1 h
    have l1 := g1.length
    have l2 := g2.length
    refine .short hp lp hs' ls' (by rw [hsplit, hA', hB']) g1 g2 (by omega) ?_
    rw [groupsValue_append, groupsValue_append, groupsValue_zeros, List.length_replicate, l1, l2,
      Nat.pow_mul]
    simp
  · split at h; · cases h
    rename_i hl
    split at h; · cases h
    obtain ⟨ns, g, rfl⟩ := (parseHextets_iff _ _ _).1 h
    have := g.length
    exact .full ns g (by omega) (by simp)

theorem parseV6Parts_iff (parts : List (List Char)) (n : Nat) :
    parseV6Parts parts = some n ↔ PartsRead parts n :=
  ⟨read_of_parseV6Parts, parseV6Parts_of_read⟩

end Acltk
