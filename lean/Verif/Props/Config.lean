import Verif.Spec.ConfigSpec
import Verif.Lemmas.Bits
/-!
# C35, C36, C38, C39, C42: building the configuration from the parse result
-/
namespace Acltk.Config
open Acltk

theorem snocInd {α : Type} {P : List α → Prop} (nil : P [])
    (snoc : ∀ l a, P l → P (l ++ [a])) : ∀ l, P l := by
  intro l
  have : ∀ r : List α, P r.reverse := by
    intro r
    induction r with
    | nil => exact nil
    | cons a r ih => rw [List.reverse_cons]; exact snoc _ _ ih
  simpa using this l.reverse

/-- The fold from a start state with an arbitrary item list to remove from. -/
def run (agName : Oid → String) (h : Oid → Dict String Oid) (ast0 l : List Item) : Cfg :=
  l.foldl (step agName) { ifAg := h, ast := ast0 }

theorem run_snoc (agName h ast0 l i) :
    run agName h ast0 (l ++ [i]) = step agName (run agName h ast0 l) i := by
  simp [run, List.foldl_append]

theorem run_rules (agName h ast0 l) :
    (run agName h ast0 l).rules = l.filterMap ruleOf := by
  induction l using snocInd with
  | nil => rfl
  | snoc l i ih =>
    rw [run_snoc, List.filterMap_append, ← ih]
    cases i <;> simp [step, ruleOf] <;> (split <;> simp [ruleOf])

/-- What the item list still holds after the loop: the items no branch handles. -/
def handled : Item → Bool
  | .rules .. | .route .. | .other .. => false
  | _ => true

theorem run_ast (agName h) (l rest : List Item) :
    (run agName h (l ++ rest) l).ast = l.filter (fun i => !handled i) ++ rest := by
  induction l using snocInd generalizing rest with
  | nil => rfl
  | snoc l i ih =>
    rw [run_snoc, List.filter_append, List.append_assoc l [i] rest]
    have ih' := ih ([i] ++ rest)
    generalize run agName h (l ++ ([i] ++ rest)) l = c at ih' ⊢
    have herase : handled i = true →
        c.ast.erase i = l.filter (fun i => !handled i) ++ rest := by
      intro hi
      rw [ih', List.erase_append_right]
      · simp
      · simp [hi]
    cases i <;>
      first
        | (simp [step, handled, ih']; done)
        | (simp only [step] <;> (repeat' split) <;> simp [herase rfl, handled])

/-- **C35.** The rules of a configuration are the access rules of the parse result, in file order. -/
theorem C35_rules_in_file_order (agName : Oid → String) (h : Oid → Dict String Oid)
    (items : List Item) : (build agName h items).rules = items.filterMap ruleOf :=
  run_rules ..

theorem iosRules_eq (l : List Item) : iosRules l = l.flatMap rulesIn := by
  induction l with
  | nil => rfl
  | cons i t ih => cases i <;> simp [iosRules, rulesIn, ih]

theorem flatMap_filter_rules (l : List Item) :
    (l.filter isRuleItem).flatMap rulesIn
      = l.flatMap rulesIn := by
  induction l with
  | nil => rfl
  | cons i t ih => cases i <;> simp [isRuleItem, List.filter_cons, rulesIn, ih]

/-- **C35, IOS.** Rules of named lists are inlined at the place of the list. -/
theorem C35_ios_rules_in_file_order (agName : Oid → String) (h : Oid → Dict String Oid)
    (hr : Oid → List Oid) (items : List Item) :
    (buildIos agName h hr items).base.rules = items.flatMap rulesIn := by
  simp only [buildIos]
  rw [iosRules_eq, flatMap_filter_rules]

/-! ## C36 -/

theorem table_step (agName c i) (k : Kind) (hk : k ≠ .netObj) :
    tableOf k (step agName c i) =
      match definesOf k i with
      | some (n, o) => dSet (tableOf k c) n o
      | none => tableOf k c := by
  cases k <;> simp only [ne_eq, not_true_eq_false, reduceCtorEq, not_false_eq_true] at hk <;>
    cases i <;> simp only [step, definesOf, tableOf] <;> (repeat' split) <;> rfl

theorem network_step (agName c i) :
    (step agName c i).network =
      match definesOf .netObj i with
      | some (n, o) => if (dGet c.network n).isSome then c.network else dSet c.network n o
      | none => c.network := by
  cases i <;> simp only [step, definesOf] <;> (repeat' split) <;> rfl

theorem defsOf_snoc (k : Kind) (l : List Item) (i : Item) (n : String) :
    defsOf k (l ++ [i]) n = defsOf k l n ++
      (match definesOf k i with
       | some (m, o) => if m = n then [o] else []
       | none => []) := by
  unfold defsOf
  rw [List.filterMap_append, List.filter_append, List.map_append]
  congr 1
  cases hd : definesOf k i with
  | none => simp [hd]
  | some p =>
    obtain ⟨m, o⟩ := p
    by_cases hm : m = n <;> simp [hd, hm]

theorem run_table_last (agName h ast0 l) (k : Kind) (hk : k ≠ .netObj) (n : String) :
    dGet (tableOf k (run agName h ast0 l)) n = (defsOf k l n).getLast? := by
  induction l using snocInd with
  | nil => cases k <;> rfl
  | snoc l i ih =>
    rw [run_snoc, table_step agName _ i k hk, defsOf_snoc]
    cases hd : definesOf k i with
    | none => simp [ih]
    | some p =>
      obtain ⟨m, o⟩ := p
      simp only [dGet_dSet]
      by_cases hm : n = m
      · subst hm; simp
      · simp [hm, Ne.symm hm, ih]

theorem run_table_first (agName h ast0 l) (n : String) :
    dGet (run agName h ast0 l).network n = (defsOf .netObj l n).head? := by
  induction l using snocInd with
  | nil => rfl
  | snoc l i ih =>
    rw [run_snoc, network_step, defsOf_snoc]
    cases hd : definesOf .netObj i with
    | none => simp [ih]
    | some p =>
      obtain ⟨m, o⟩ := p
      simp only
      by_cases hm : m = n
      · subst hm
        cases hg : dGet (run agName h ast0 l).network m with
        | none =>
          rw [hg] at ih
          have : defsOf .netObj l m = [] := by
            cases hx : defsOf .netObj l m with
            | nil => rfl
            | cons a b => rw [hx] at ih; simp at ih
          simp [dGet_dSet, this]
        | some v =>
          rw [hg] at ih
          simp only [Option.isSome_some, if_true, hg]
          cases hx : defsOf .netObj l m with
          | nil => rw [hx] at ih; simp at ih
          | cons a b => rw [hx] at ih; simpa using ih
      · simp only [hm, if_false, List.append_nil]
        split
        · exact ih
        · rw [dGet_dSet]; simp [Ne.symm hm, ih]

/-- **C36.** Groups, service objects and time ranges: the table holds the last definition; network
objects: the first one; a name never defined is absent. -/
theorem C36_definition_tables (agName : Oid → String) (h : Oid → Dict String Oid)
    (items : List Item) (name : String) :
    (∀ k, k ≠ .netObj →
      dGet (tableOf k (build agName h items)) name = (defsOf k items name).getLast?) ∧
    dGet (tableOf .netObj (build agName h items)) name = (defsOf .netObj items name).head? ∧
    (∀ k, (∀ i ∈ items, ∀ o, definesOf k i ≠ some (name, o)) →
      dGet (tableOf k (build agName h items)) name = none) := by
  have h1 : ∀ k, k ≠ .netObj →
      dGet (tableOf k (build agName h items)) name = (defsOf k items name).getLast? :=
    fun k hk => run_table_last agName h items items k hk name
  have h2 : dGet (tableOf .netObj (build agName h items)) name = (defsOf .netObj items name).head? :=
    run_table_first agName h items items name
  refine ⟨h1, h2, ?_⟩
  intro k hk
  have hnil : defsOf k items name = [] := by
    unfold defsOf
    simp only [List.map_eq_nil_iff, List.filter_eq_nil_iff, List.mem_filterMap]
    rintro ⟨m, o⟩ ⟨i, hi, hd⟩ hm
    simp only [beq_iff_eq] at hm
    subst hm
    exact hk i hi o hd
  by_cases hn : k = .netObj
  · subst hn; rw [h2, hnil]; rfl
  · rw [h1 k hn, hnil]; rfl

/-! ## C38 -/

theorem natSection_snoc (n : Nat) (l : List Item) (i : Item) :
    natSection n (l ++ [i]) = natSection n l ++
      (match natOf i with
       | some (m, o) => if m = n then [o] else []
       | none => []) := by
  unfold natSection
  rw [List.filterMap_append, List.filter_append, List.map_append]
  congr 1
  cases hd : natOf i with
  | none => simp [hd]
  | some p =>
    obtain ⟨m, o⟩ := p
    by_cases hm : m = n <;> simp [hd, hm]

theorem run_nat (agName h ast0 l) :
    (run agName h ast0 l).nat1 = natSection 1 l ∧ (run agName h ast0 l).nat2 = natSection 2 l ∧
    (run agName h ast0 l).nat3 = natSection 3 l := by
  induction l using snocInd with
  | nil => exact ⟨rfl, rfl, rfl⟩
  | snoc l i ih =>
    rw [run_snoc, natSection_snoc, natSection_snoc, natSection_snoc, ← ih.1, ← ih.2.1, ← ih.2.2]
    generalize run agName h ast0 l = c
    cases i with
    | nat o options =>
      by_cases h1 : "after-auto" ∈ options ∨ "after-object" ∈ options
      · have : (options.contains "after-auto" || options.contains "after-object") = true := by
          simpa [List.contains_iff_mem] using h1
        simp only [step, this, natOf, h1, if_true]; simp
      · have : (options.contains "after-auto" || options.contains "after-object") = false := by
          simpa [List.contains_iff_mem, not_or] using h1
        simp only [step, this, natOf, h1, if_false]; simp
    | netObj n o nat => cases nat <;> simp [step, natOf]
    | accessGroup o a b => simp only [step, natOf]; split <;> simp
    | _ => simp [step, natOf]

/-- **C38.** Every section holds exactly its NAT entries in file order, and every NAT entry of the
file is in the sections as often as it is in the file. -/
theorem C38_nat_sections (agName : Oid → String) (h : Oid → Dict String Oid) (items : List Item) :
    let c := build agName h items
    c.nat1 = natSection 1 items ∧ c.nat2 = natSection 2 items ∧ c.nat3 = natSection 3 items ∧
    ∀ o, c.nat1.count o + c.nat2.count o + c.nat3.count o =
      ((items.filterMap natOf).map (·.2)).count o := by
  have hr := run_nat agName h items items
  refine ⟨hr.1, hr.2.1, hr.2.2, ?_⟩
  intro o
  show (run agName h items items).nat1.count o + (run agName h items items).nat2.count o +
    (run agName h items items).nat3.count o = _
  rw [hr.1, hr.2.1, hr.2.2]
  unfold natSection
  have hsec : ∀ p ∈ items.filterMap natOf, p.1 = 1 ∨ p.1 = 2 ∨ p.1 = 3 := by
    rintro ⟨m, o'⟩ hp
    simp only [List.mem_filterMap] at hp
    obtain ⟨i, -, hi⟩ := hp
    cases i with
    | nat o options =>
      simp only [natOf] at hi
      split at hi <;> simp only [Option.some.injEq, Prod.mk.injEq] at hi <;> simp [← hi.1]
    | netObj n o nat => cases nat <;> simp [natOf] at hi; simp [← hi.1]
    | _ => simp [natOf] at hi
  generalize items.filterMap natOf = L at hsec
  induction L with
  | nil => rfl
  | cons p t ih =>
    have iht := ih (fun q hq => hsec q (by simp [hq]))
    rcases hsec p (by simp) with h1 | h1 | h1 <;>
      simp only [List.filter_cons, h1] <;>
      simp [List.count_cons] <;> omega

/-! ## C39 -/

theorem filterMap_congr' {α β : Type} {f g : α → Option β} {l : List α}
    (h : ∀ a ∈ l, f a = g a) : l.filterMap f = l.filterMap g := by
  induction l with
  | nil => rfl
  | cons a t ih =>
    simp only [List.filterMap_cons, h a (by simp), ih (fun b hb => h b (by simp [hb]))]

theorem dVals_eq_filterMap {β : Type} (d : Dict String β) (hn : (dKeys d).Nodup) :
    dVals d = (dKeys d).filterMap (dGet d) := by
  induction d with
  | nil => rfl
  | cons p t ih =>
    obtain ⟨k, v⟩ := p
    simp only [dKeys, List.map_cons, List.nodup_cons] at hn
    have iht := ih hn.2
    simp only [dVals, dKeys, List.map_cons, List.filterMap_cons, dGet, if_true] at iht ⊢
    rw [iht]
    congr 1
    apply filterMap_congr'
    intro a ha
    have : k ≠ a := by rintro rfl; exact hn.1 ha
    simp [dGet, this]

theorem eraseDups_snoc {α : Type} [BEq α] [LawfulBEq α] [DecidableEq α] (l : List α) (a : α) :
    (l ++ [a]).eraseDups = if a ∈ l then l.eraseDups else l.eraseDups ++ [a] := by
  rw [List.eraseDups_append]
  by_cases h : a ∈ l
  · simp [h, List.removeAll]
  · simp [h, List.removeAll, List.eraseDups_cons]

theorem ifaces_step (agName c i) :
    (step agName c i).interfaces =
      match ifaceOf i with
      | some j => dSet c.interfaces j.alias j
      | none => c.interfaces := by
  cases i <;> simp only [step, ifaceOf] <;> (repeat' split) <;> rfl

theorem run_ifaces (agName h ast0 l) :
    dKeys (run agName h ast0 l).interfaces = ((l.filterMap ifaceOf).map (·.alias)).eraseDups ∧
    ∀ a, dGet (run agName h ast0 l).interfaces a =
      (l.filterMap ifaceOf).reverse.find? (fun i => i.alias == a) := by
  induction l using snocInd with
  | nil => exact ⟨rfl, fun _ => rfl⟩
  | snoc l i ih =>
    rw [run_snoc, ifaces_step, List.filterMap_append]
    cases hi : ifaceOf i with
    | none => simpa [hi] using ih
    | some j =>
      simp only [List.filterMap_cons, hi, List.filterMap_nil, List.map_append, List.map_cons,
        List.map_nil]
      refine ⟨?_, ?_⟩
      · rw [dKeys_dSet, eraseDups_snoc, ih.1]
        by_cases hm : j.alias ∈ (l.filterMap ifaceOf).map (·.alias)
        · rw [if_pos hm, if_pos (List.mem_eraseDups.2 hm)]
        · rw [if_neg hm, if_neg (fun h => hm (List.mem_eraseDups.1 h))]
      · intro a
        rw [dGet_dSet, ih.2 a, List.reverse_append]
        by_cases ha : a = j.alias
        · subst ha; simp
        · simp [ha, Ne.symm ha]

theorem eraseDups_nodup {α : Type} [BEq α] [LawfulBEq α] [DecidableEq α] (l : List α) :
    l.eraseDups.Nodup := by
  induction l using snocInd with
  | nil => simp
  | snoc l a ih =>
    rw [eraseDups_snoc]
    split
    · exact ih
    · rename_i h
      rw [List.nodup_append]
      refine ⟨ih, by simp, ?_⟩
      rintro x hx y hy rfl
      simp only [List.mem_singleton] at hy
      subst hy
      exact h (List.mem_eraseDups.1 hx)

theorem run_inForce (agName h ast0 l) :
    dVals (run agName h ast0 l).interfaces = inForce l := by
  have hr := run_ifaces agName h ast0 l
  rw [dVals_eq_filterMap _ (by rw [hr.1]; exact eraseDups_nodup _), hr.1]
  unfold inForce
  apply filterMap_congr'
  intro a _
  exact hr.2 a

theorem run_findIface (agName h ast0 l n) :
    findIface (run agName h ast0 l).interfaces n = named l n := by
  unfold findIface named
  rw [run_inForce]

theorem binds_snoc_old {l : List Item} {i : Item} {k g j d} (hk : k < l.length) :
    Binds (l ++ [i]) k g j d ↔ Binds l k g j d := by
  unfold Binds
  rw [List.getElem?_append_left hk, List.take_append_of_le_length (Nat.le_of_lt hk)]

theorem binds_lt {l : List Item} {k g j d} (h : Binds l k g j d) : k < l.length := by
  obtain ⟨n, i, h1, -⟩ := h
  exact (List.getElem?_eq_some_iff.1 h1).1

theorem binds_snoc_new {l : List Item} {i : Item} {g j d} :
    Binds (l ++ [i]) l.length g j d ↔
      ∃ nameif f, i = .accessGroup g nameif d ∧ named l nameif = some f ∧ f.oid = j := by
  unfold Binds
  simp

/-- What one command does to the heap. -/
theorem heap_step (agName c i) :
    (∃ g n d j, i = .accessGroup g n d ∧ findIface c.interfaces n = some j ∧
      (step agName c i).ifAg = upd c.ifAg j.oid (dSet (c.ifAg j.oid) d g) ∧
      (step agName c i).agIface = upd c.agIface g (some j.oid)) ∨
    ((∀ g n d, i = .accessGroup g n d → findIface c.interfaces n = none) ∧
      (step agName c i).ifAg = c.ifAg ∧ (step agName c i).agIface = c.agIface) := by
  cases i with
  | accessGroup g n d =>
    cases hf : findIface c.interfaces n with
    | none => right; refine ⟨?_, ?_, ?_⟩ <;> simp [step, hf]
    | some j => left; exact ⟨g, n, d, j, rfl, hf, by simp [step, hf], by simp [step, hf]⟩
  | nat o options =>
    right; simp only [step]; split <;> simp
  | _ => right; simp [step]

theorem run_ifAg (agName h ast0 l) (j : Oid) (d : String) :
    ((∀ k g, ¬ Binds l k g j d) ∧ dGet ((run agName h ast0 l).ifAg j) d = dGet (h j) d) ∨
    (∃ k g, Binds l k g j d ∧ (∀ k' g', k < k' → ¬ Binds l k' g' j d) ∧
      dGet ((run agName h ast0 l).ifAg j) d = some g) := by
  induction l using snocInd with
  | nil => left; refine ⟨?_, rfl⟩; intro k g hb; exact absurd (binds_lt hb) (by simp)
  | snoc l i ih =>
    rw [run_snoc]
    -- the new command binds `j` in direction `d`, or not
    by_cases hnew : ∃ g, Binds (l ++ [i]) l.length g j d
    · right
      obtain ⟨g, hb⟩ := hnew
      obtain ⟨n, f, hi, hf, hj⟩ := binds_snoc_new.1 hb
      refine ⟨l.length, g, hb, ?_, ?_⟩
      · intro k' g' hlt hb'
        have := binds_lt hb'
        simp at this; omega
      · subst hi
        simp only [step, run_findIface, hf, hj, upd, if_true, dGet_dSet_same]
    · have hsame : dGet ((step agName (run agName h ast0 l) i).ifAg j) d =
          dGet ((run agName h ast0 l).ifAg j) d := by
        rcases heap_step agName (run agName h ast0 l) i with ⟨g, n, d', f, hi, hf, h1, -⟩ | ⟨-, h1, -⟩
        · rw [h1]
          by_cases hj : j = f.oid
          · simp only [upd, hj, if_true]
            rw [dGet_dSet_other]
            rintro rfl
            apply hnew
            refine ⟨g, binds_snoc_new.2 ⟨n, f, hi, ?_, hj.symm⟩⟩
            rw [← run_findIface agName h ast0]; exact hf
          · simp [upd, hj]
        · rw [h1]
      have hold : ∀ k g, Binds (l ++ [i]) k g j d ↔ Binds l k g j d := by
        intro k g
        constructor
        · intro hb
          have hlt := binds_lt hb
          simp at hlt
          by_cases hk : k = l.length
          · subst hk; exact absurd ⟨g, hb⟩ hnew
          · exact (binds_snoc_old (by omega)).1 hb
        · intro hb
          exact (binds_snoc_old (binds_lt hb)).2 hb
      rcases ih with ⟨h1, h2⟩ | ⟨k, g, h1, h2, h3⟩
      · left
        exact ⟨fun k g hb => h1 k g ((hold k g).1 hb), by rw [hsame, h2]⟩
      · right
        exact ⟨k, g, (hold k g).2 h1, fun k' g' hlt hb => h2 k' g' hlt ((hold k' g').1 hb),
          by rw [hsame, h3]⟩

theorem run_agIface (agName h ast0 l) (g : Oid) :
    ((∀ k j d, ¬ Binds l k g j d) ∧ (run agName h ast0 l).agIface g = none) ∨
    (∃ k j d, Binds l k g j d ∧ (run agName h ast0 l).agIface g = some j) := by
  induction l using snocInd with
  | nil => left; refine ⟨?_, rfl⟩; intro k j d hb; exact absurd (binds_lt hb) (by simp)
  | snoc l i ih =>
    rw [run_snoc]
    by_cases hnew : ∃ j d, Binds (l ++ [i]) l.length g j d
    · right
      obtain ⟨j, d, hb⟩ := hnew
      refine ⟨_, j, d, hb, ?_⟩
      obtain ⟨n, f, hi, hf, hj⟩ := binds_snoc_new.1 hb
      subst hi
      simp only [step, run_findIface, hf, hj, upd, if_true]
    · have hsame : (step agName (run agName h ast0 l) i).agIface g =
          (run agName h ast0 l).agIface g := by
        rcases heap_step agName (run agName h ast0 l) i with ⟨g', n, d', f, hi, hf, -, h1⟩ | ⟨-, -, h1⟩
        · rw [h1]
          have : g ≠ g' := by
            rintro rfl
            apply hnew
            refine ⟨f.oid, d', binds_snoc_new.2 ⟨n, f, hi, ?_, rfl⟩⟩
            rw [← run_findIface agName h ast0]; exact hf
          simp [upd, this]
        · rw [h1]
      rcases ih with ⟨h1, h2⟩ | ⟨k, j, d, h1, h2⟩
      · left
        refine ⟨?_, by rw [hsame, h2]⟩
        intro k j d hb
        have hlt := binds_lt hb
        simp at hlt
        by_cases hk : k = l.length
        · subst hk; exact hnew ⟨j, d, hb⟩
        · exact h1 k j d ((binds_snoc_old (by omega)).1 hb)
      · right
        exact ⟨k, j, d, (binds_snoc_old (binds_lt h1)).2 h1, by rw [hsame, h2]⟩

/-- **C39.** The access groups of an interface object: the last command that binds to it in that
direction, or what it was constructed with when none does.  An access group knows an interface iff
it was bound, and then it is the one it was bound to. -/
theorem C39_access_group_binding (agName : Oid → String) (h : Oid → Dict String Oid)
    (items : List Item) :
    let c := build agName h items
    (∀ j d k g, Binds items k g j d → (∀ k' g', k < k' → ¬ Binds items k' g' j d) →
      dGet (c.ifAg j) d = some g) ∧
    (∀ j d, (∀ k g, ¬ Binds items k g j d) → dGet (c.ifAg j) d = dGet (h j) d) ∧
    (∀ g j, c.agIface g = some j → ∃ k d, Binds items k g j d) ∧
    (∀ g, c.agIface g = none ↔ ∀ k j d, ¬ Binds items k g j d) := by
  refine ⟨?_, ?_, ?_, ?_⟩
  · intro j d k g hb hlast
    rcases run_ifAg agName h items items j d with ⟨h1, -⟩ | ⟨k2, g2, h1, h2, h3⟩
    · exact absurd hb (h1 k g)
    · have hk : k = k2 := by
        rcases Nat.lt_trichotomy k k2 with hlt | he | hgt
        · exact absurd h1 (hlast _ _ hlt)
        · exact he
        · exact absurd hb (h2 _ _ hgt)
      subst hk
      obtain ⟨n, f, e1, -⟩ := hb
      obtain ⟨n', f', e2, -⟩ := h1
      rw [e1] at e2
      simp only [Option.some.injEq, Item.accessGroup.injEq] at e2
      rw [e2.1]; exact h3
  · intro j d hno
    rcases run_ifAg agName h items items j d with ⟨-, h2⟩ | ⟨k2, g2, h1, -⟩
    · exact h2
    · exact absurd h1 (hno k2 g2)
  · intro g j hg
    rcases run_agIface agName h items items g with ⟨-, h2⟩ | ⟨k, j2, d, h1, h2⟩
    · rw [show (build agName h items).agIface g = none from h2] at hg; cases hg
    · rw [show (build agName h items).agIface g = some j2 from h2] at hg
      cases hg; exact ⟨k, d, h1⟩
  · intro g
    rcases run_agIface agName h items items g with ⟨h1, h2⟩ | ⟨k, j2, d, h1, h2⟩
    · exact ⟨fun _ => h1, fun _ => h2⟩
    · constructor
      · intro hn
        rw [show (build agName h items).agIface g = some j2 from h2] at hn; cases hn
      · intro hno; exact absurd h1 (hno k j2 d)

theorem eraseDups_of_nodup {α : Type} [BEq α] [LawfulBEq α] [DecidableEq α] (l : List α)
    (hn : l.Nodup) : l.eraseDups = l := by
  induction l using snocInd with
  | nil => simp
  | snoc l a ih =>
    rw [List.nodup_append] at hn
    have : a ∉ l := fun hm => hn.2.2 a hm a (by simp) rfl
    rw [eraseDups_snoc, if_neg this, ih hn.1]

theorem find_alias {l : List Iface} (hn : (l.map (·.alias)).Nodup) {i : Iface} (hi : i ∈ l) :
    l.find? (fun j => j.alias == i.alias) = some i := by
  induction l with
  | nil => simp at hi
  | cons x t ih =>
    simp only [List.map_cons, List.nodup_cons, List.mem_map, not_exists, not_and] at hn
    rcases List.mem_cons.1 hi with rfl | hm
    · simp
    · have : x.alias ≠ i.alias := fun e => hn.1 i hm e.symm
      simp [this, ih hn.2 hm]

/-- When no alias is defined twice, the interfaces in force are simply those of the file, in order:
an access group binds to the first earlier interface with its name. -/
theorem C39_distinct_aliases (items : List Item)
    (hn : ((items.filterMap ifaceOf).map (·.alias)).Nodup) :
    inForce items = items.filterMap ifaceOf := by
  unfold inForce
  generalize items.filterMap ifaceOf = l at hn
  show (l.map (·.alias)).eraseDups.filterMap (fun a => l.reverse.find? (fun i => i.alias == a)) = l
  rw [eraseDups_of_nodup _ hn, List.filterMap_map]
  have hrev : (l.reverse.map (·.alias)).Nodup := by
    rw [List.map_reverse, List.Nodup, List.pairwise_reverse]
    exact List.Pairwise.imp (fun h => Ne.symm h) hn
  conv => rhs; rw [← List.filterMap_some (l := l)]
  apply filterMap_congr'
  intro i hi
  exact find_alias hrev (by simpa using hi)

/-! ### the table `access_groups` (IOS interface-level access groups) -/

theorem agAppend_get (agName : Oid → String) (d : Dict String (List Oid)) (v : Oid) (n : String) :
    (dGet (agAppend agName d v) n).getD [] =
      (dGet d n).getD [] ++ (if agName v = n then [v] else []) := by
  unfold agAppend
  rw [dGet_dSet]
  by_cases h : n = agName v
  · subst h; simp
  · simp [h, Ne.symm h]

theorem agFold_get (agName : Oid → String) (vs : List Oid) (d : Dict String (List Oid)) (n : String) :
    (dGet (vs.foldl (agAppend agName) d) n).getD [] =
      (dGet d n).getD [] ++ vs.filter (fun v => agName v == n) := by
  induction vs generalizing d with
  | nil => simp
  | cons v t ih =>
    rw [List.foldl_cons, ih, agAppend_get, List.append_assoc]
    congr 1
    by_cases h : agName v = n <;> simp [h]

/-- The access groups interface objects were constructed with, by name, in file order: nothing an
access-group command does later changes this table.  (Interface objects are distinct.) -/
theorem run_accessGroups (agName h ast0 l) (n : String)
    (hn : ((l.filterMap ifaceOf).map (·.oid)).Nodup) :
    (dGet (run agName h ast0 l).accessGroups n).getD [] =
      ((l.filterMap ifaceOf).flatMap (fun i => dVals (h i.oid))).filter (fun v => agName v == n) := by
  induction l using snocInd with
  | nil => rfl
  | snoc l i ih =>
    rw [List.filterMap_append, List.map_append, List.nodup_append] at hn
    have ih := ih hn.1
    rw [run_snoc, List.filterMap_append, List.flatMap_append, List.filter_append]
    cases i with
    | iface j =>
      simp only [step, agFold_get, ih, ifaceOf, List.filterMap_cons, List.filterMap_nil,
        List.flatMap_cons, List.flatMap_nil, List.append_nil]
      congr 2
      -- `j` has not been bound yet
      have hfresh : ∀ k g d, ¬ Binds l k g j.oid d := by
        rintro k g d ⟨nm, f, -, hf, hfj⟩
        have hmem : f ∈ inForce (l.take k) := List.mem_of_find?_eq_some hf
        simp only [inForce, List.mem_filterMap] at hmem
        obtain ⟨a, -, ha⟩ := hmem
        have hm2 : f ∈ (l.take k).filterMap ifaceOf := by
          have := List.mem_of_find?_eq_some ha
          simpa using this
        have hm3 : f ∈ l.filterMap ifaceOf := by
          rw [← List.take_append_drop k l, List.filterMap_append]; simp [hm2]
        exact hn.2.2 f.oid (List.mem_map.2 ⟨f, hm3, rfl⟩) j.oid (by simp [ifaceOf]) hfj
      have hkeep : ∀ (l' : List Item), (∀ k g d, ¬ Binds l' k g j.oid d) →
          (run agName h ast0 l').ifAg j.oid = h j.oid := by
        intro l'
        induction l' using snocInd with
        | nil => intro _; rfl
        | snoc l' i' ih' =>
          intro hf
          rw [run_snoc]
          have hf' : ∀ k g d, ¬ Binds l' k g j.oid d :=
            fun k g d hb => hf k g d ((binds_snoc_old (binds_lt hb)).2 hb)
          rcases heap_step agName (run agName h ast0 l') i' with
            ⟨g, m, d', f, hi, hff, h1, -⟩ | ⟨-, h1, -⟩
          · rw [h1]
            have : j.oid ≠ f.oid := by
              intro e
              refine hf l'.length g d' (binds_snoc_new.2 ⟨m, f, hi, ?_, e.symm⟩)
              rw [← run_findIface agName h ast0]; exact hff
            simp [upd, this, ih' hf']
          · rw [h1, ih' hf']
      rw [hkeep l hfresh]
    | accessGroup g m d =>
      simp only [step, ifaceOf]
      split <;> simp [ih, ifaceOf]
    | nat o options => simp only [step]; split <;> simp [ih, ifaceOf]
    | _ => simp [step, ih, ifaceOf]

/-- **C39, IOS.** `config.access_groups[name]` lists the interface-level access groups with that
name in file order. -/
theorem C39_access_groups_table (agName : Oid → String) (h : Oid → Dict String Oid)
    (items : List Item) (name : String)
    (hn : ((items.filterMap ifaceOf).map (·.oid)).Nodup) :
    (dGet (build agName h items).accessGroups name).getD [] =
      ((items.filterMap ifaceOf).flatMap (fun i => dVals (h i.oid))).filter
        (fun v => agName v == name) :=
  run_accessGroups agName h items items name hn

/-! ## C42 -/

theorem iosRoutes_eq (l : List Item) : iosRoutes l = l.filterMap routeOf := by
  induction l with
  | nil => rfl
  | cons i t ih => cases i <;> simp [iosRoutes, List.filterMap_cons, routeOf, ih]

theorem filterMap_routes_unhandled (l : List Item) :
    (l.filter (fun i => !handled i)).filterMap routeOf = l.filterMap routeOf := by
  induction l with
  | nil => rfl
  | cons i t ih =>
    rw [List.filter_cons, List.filterMap_cons, ← ih]
    cases i <;> simp only [handled, Bool.not_false, Bool.not_true, if_true, Bool.false_eq_true,
      if_false, routeOf, List.filterMap_cons]

theorem build_ast (agName h) (items : List Item) :
    (build agName h items).ast = items.filter (fun i => !handled i) := by
  have := run_ast agName h items []
  rw [List.append_nil, List.append_nil] at this
  exact this

theorem mem_setAdd {r : List Oid} {x y : Oid} : y ∈ setAdd r x ↔ y = x ∨ y ∈ r := by
  unfold setAdd
  split
  · constructor
    · exact Or.inr
    · rintro (rfl | h) <;> assumption
  · simp [or_comm]

theorem setAdd_nodup {r : List Oid} {x : Oid} (h : r.Nodup) : (setAdd r x).Nodup := by
  unfold setAdd
  split
  · exact h
  · rename_i hx
    rw [List.nodup_append]
    refine ⟨h, by simp, ?_⟩
    rintro a ha b hb rfl
    simp only [List.mem_singleton] at hb
    subst hb; exact hx ha

/-- The inner loop for one interface. -/
theorem attach_nets (r : Oid) (gw : Addr) (jo : Oid) (nets : List Net) (h : Oid → List Oid)
    (hnd : ∀ x, (h x).Nodup) (x y : Oid) :
    let h' := nets.foldl
      (fun h n => if n.containsAddr gw then upd h jo (setAdd (h jo) r) else h) h
    (y ∈ h' x ↔ y ∈ h x ∨ (y = r ∧ x = jo ∧ ∃ n ∈ nets, n.containsAddr gw = true)) ∧
    ∀ z, (h' z).Nodup := by
  induction nets generalizing h with
  | nil => simp [hnd]
  | cons n t ih =>
    simp only [List.foldl_cons]
    by_cases hc : n.containsAddr gw = true
    · have hnd' : ∀ z, (upd h jo (setAdd (h jo) r) z).Nodup := by
        intro z; unfold upd; split
        · exact setAdd_nodup (hnd jo)
        · exact hnd z
      have := ih (upd h jo (setAdd (h jo) r)) hnd'
      simp only [hc, if_true]
      refine ⟨?_, this.2⟩
      rw [this.1]
      unfold upd
      by_cases hx : x = jo
      · subst hx
        simp only [if_true, mem_setAdd, true_and, List.mem_cons, exists_eq_or_imp, hc, true_or,
          and_true]
        constructor
        · rintro ((h1 | h1) | h1)
          · exact Or.inr h1
          · exact Or.inl h1
          · exact Or.inr h1.1
        · rintro (h1 | h1)
          · exact Or.inl (Or.inr h1)
          · exact Or.inl (Or.inl h1)
      · simp [hx]
    · have := ih h hnd
      simp only [hc, Bool.false_eq_true, if_false]
      refine ⟨?_, this.2⟩
      rw [this.1]
      simp [hc]

theorem attach_ifs (r : Oid) (gw : Addr) (ifs : List Iface) (h : Oid → List Oid)
    (hnd : ∀ x, (h x).Nodup) (x y : Oid) :
    (y ∈ attachAddr r gw ifs h x ↔ y ∈ h x ∨
      (y = r ∧ ∃ j ∈ ifs, j.oid = x ∧ ∃ n ∈ j.nets, n.containsAddr gw = true)) ∧
    ∀ z, (attachAddr r gw ifs h z).Nodup := by
  unfold attachAddr
  induction ifs generalizing h with
  | nil => simp [hnd]
  | cons j t ih =>
    simp only [List.foldl_cons]
    have h1 := fun x y => attach_nets r gw j.oid j.nets h hnd x y
    have := ih _ (h1 0 0).2
    refine ⟨?_, this.2⟩
    rw [this.1, (h1 x y).1]
    simp only [List.mem_cons, exists_eq_or_imp]
    constructor
    · rintro ((a | ⟨a, b, c⟩) | ⟨a, b⟩)
      · exact Or.inl a
      · exact Or.inr ⟨a, Or.inl ⟨b.symm, c⟩⟩
      · exact Or.inr ⟨a, Or.inr b⟩
    · rintro (a | ⟨a, (⟨b, c⟩ | b)⟩)
      · exact Or.inl (Or.inl a)
      · exact Or.inl (Or.inr ⟨a, b.symm, c⟩)
      · exact Or.inr ⟨a, b⟩

/-- `Reaches` with the code's own membership test. -/
def ReachesB (ifs : List Iface) (g : Gw) (x : Oid) : Prop :=
  match g with
  | .iface o => o = x
  | .addr a => ∃ j ∈ ifs, j.oid = x ∧ ∃ n ∈ j.nets, n.containsAddr a = true

theorem attach_all (ifs : List Iface) (routes : List (Oid × Gw)) (h : Oid → List Oid)
    (hnd : ∀ x, (h x).Nodup) (x y : Oid) :
    (y ∈ routes.foldl (attach ifs) h x ↔ y ∈ h x ∨ ∃ g, (y, g) ∈ routes ∧ ReachesB ifs g x) ∧
    ∀ z, (routes.foldl (attach ifs) h z).Nodup := by
  induction routes generalizing h with
  | nil => simp [hnd]
  | cons r t ih =>
    obtain ⟨o, g⟩ := r
    rw [List.foldl_cons]
    have key : ∀ x y, (y ∈ attach ifs h (o, g) x ↔ y ∈ h x ∨ (y = o ∧ ReachesB ifs g x)) ∧
        ∀ z, (attach ifs h (o, g) z).Nodup := by
      intro x y
      cases g with
      | iface q =>
        simp only [attach, ReachesB]
        constructor
        · unfold upd
          by_cases hq : x = q
          · subst hq; simp [mem_setAdd, or_comm]
          · simp [hq, Ne.symm hq]
        · intro z; unfold upd; split
          · exact setAdd_nodup (hnd q)
          · exact hnd z
      | addr a => exact attach_ifs o a ifs h hnd x y
    have := ih _ (key 0 0).2
    refine ⟨?_, this.2⟩
    rw [this.1, (key x y).1]
    constructor
    · rintro ((a | ⟨a, b⟩) | ⟨g', a, b⟩)
      · exact Or.inl a
      · exact Or.inr ⟨g, by simp [a], b⟩
      · exact Or.inr ⟨g', by simp [a], b⟩
    · rintro (a | ⟨g', a, b⟩)
      · exact Or.inl (Or.inl a)
      · rcases List.mem_cons.1 a with e | e
        · cases e; exact Or.inl (Or.inr ⟨rfl, b⟩)
        · exact Or.inr ⟨g', e, b⟩

/-- **C42.** The routes are listed in file order; a route is attached to an interface object iff its
gateway is that object, or is an address inside a network of it (for the interfaces in force at the
end of the file); nothing is attached twice. -/
theorem C42_routes (agName : Oid → String) (h : Oid → Dict String Oid) (items : List Item)
    (hw : ∀ i ∈ items, WellFormed i) :
    let c := buildIos agName h (fun _ => []) items
    c.routes = items.filterMap routeOf ∧
    (∀ j r, r ∈ c.ifRoutes j ↔ ∃ g, .route r g ∈ items ∧ Reaches (inForce items) g j) ∧
    ∀ j, (c.ifRoutes j).Nodup := by
  have hroutes : (buildIos agName h (fun _ => []) items).routes = items.filterMap routeOf := by
    simp only [buildIos, build_ast, iosRoutes_eq, filterMap_routes_unhandled]
  have hall := fun x y => attach_all (inForce items) (items.filterMap routeOf) (fun _ => [])
    (by simp) x y
  have heq : (buildIos agName h (fun _ => []) items).ifRoutes =
      (items.filterMap routeOf).foldl (attach (inForce items)) (fun _ => []) := by
    rw [← hroutes]
    simp only [buildIos]
    rw [show dVals (build agName h items).interfaces = inForce items from
      run_inForce agName h items items]
  have hmem : ∀ f ∈ inForce items, .iface f ∈ items := by
    intro f hf
    simp only [inForce, List.mem_filterMap] at hf
    obtain ⟨a, -, ha⟩ := hf
    have hm : f ∈ items.filterMap ifaceOf := by
      simpa using List.mem_of_find?_eq_some ha
    simp only [List.mem_filterMap] at hm
    obtain ⟨i, hi, hif⟩ := hm
    cases i <;> simp only [ifaceOf, Option.some.injEq, reduceCtorEq] at hif
    subst hif; exact hi
  have hreach : ∀ r g j, .route r g ∈ items →
      (ReachesB (inForce items) g j ↔ Reaches (inForce items) g j) := by
    intro r g j hr
    cases g with
    | iface o => exact Iff.rfl
    | addr a =>
      have ha : a.Valid := hw _ hr
      simp only [ReachesB, Reaches]
      constructor
      · rintro ⟨f, hf, hj, n, hn, hc⟩
        exact ⟨f, hf, hj, n, hn, (containsAddr_iff n (hw _ (hmem f hf) n hn) a ha).1 hc⟩
      · rintro ⟨f, hf, hj, n, hn, hc⟩
        exact ⟨f, hf, hj, n, hn, (containsAddr_iff n (hw _ (hmem f hf) n hn) a ha).2 hc⟩
  refine ⟨hroutes, ?_, ?_⟩
  · intro j r
    rw [heq, (hall j r).1]
    simp only [List.not_mem_nil, false_or, List.mem_filterMap]
    constructor
    · rintro ⟨g, ⟨i, hi, hr⟩, hg⟩
      cases i <;> simp only [routeOf, Option.some.injEq, Prod.mk.injEq, reduceCtorEq] at hr
      obtain ⟨rfl, rfl⟩ := hr
      exact ⟨_, hi, (hreach _ _ _ hi).1 hg⟩
    · rintro ⟨g, hi, hg⟩
      exact ⟨g, ⟨_, hi, rfl⟩, (hreach _ _ _ hi).2 hg⟩
  · intro j; rw [heq]; exact (hall 0 0).2 j

/-! ## a concrete configuration meets the hypotheses -/

/-- Two interfaces, one of them defined twice, access groups, NAT of all sections, groups defined
twice, a named list and a route through each kind of gateway. -/
def sampleItems : List Item :=
  [.hostname "fw", .iface ⟨1, "Gi0", some "outside", [⟨.v4, 0xC0A80100, 24⟩]⟩,
   .iface ⟨2, "Gi1", some "inside", [⟨.v4, 0x0A000000, 8⟩]⟩,
   .netObj "srv" 10 (some 11), .netGroup "g" 12, .rule 13, .netGroup "g" 14, .netObj "srv" 15 none,
   .accessGroup 16 "inside" "in", .accessGroup 17 "inside" "in", .accessGroup 18 "dmz" "in",
   .nat 19 [], .nat 20 ["after-auto"], .rules 21 [22, 23], .route 24 (.addr ⟨.v4, 0x0A010101⟩),
   .route 25 (.iface 1), .other 0, .rule 26]

theorem sample_config :
    (build (fun _ => "acl") (fun _ => []) sampleItems).rules = [13, 26] ∧
    (buildIos (fun _ => "acl") (fun _ => []) (fun _ => []) sampleItems).base.rules = [13, 22, 23, 26] ∧
    dGet (build (fun _ => "acl") (fun _ => []) sampleItems).network "srv" = some 10 ∧
    dGet (build (fun _ => "acl") (fun _ => []) sampleItems).gNetwork "g" = some 14 ∧
    dGet ((build (fun _ => "acl") (fun _ => []) sampleItems).ifAg 2) "in" = some 17 ∧
    (build (fun _ => "acl") (fun _ => []) sampleItems).agIface 18 = none ∧
    (build (fun _ => "acl") (fun _ => []) sampleItems).nat3 = [20] ∧
    (buildIos (fun _ => "acl") (fun _ => []) (fun _ => []) sampleItems).ifRoutes 2 = [24] ∧
    (buildIos (fun _ => "acl") (fun _ => []) (fun _ => []) sampleItems).ifRoutes 1 = [25] ∧
    ((sampleItems.filterMap ifaceOf).map (·.oid)).Nodup ∧
    ((sampleItems.filterMap ifaceOf).map (·.alias)).Nodup := by
  decide +kernel

theorem sample_wellFormed : ∀ i ∈ sampleItems, WellFormed i := by
  intro i hi
  simp only [sampleItems, List.mem_cons, List.not_mem_nil, or_false] at hi
  rcases hi with rfl | rfl | rfl | rfl | rfl | rfl | rfl | rfl | rfl | rfl | rfl | rfl | rfl | rfl |
    rfl | rfl | rfl | rfl <;> simp only [WellFormed] <;> decide +kernel

end Acltk.Config
