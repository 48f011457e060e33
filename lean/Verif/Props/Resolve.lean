import Verif.Spec.ResolveSpec
/-!
# C43, C44: `resolve`
-/
namespace Acltk.Resolve
open Acltk

theorem mem_add {r : List El} {x y : El} : y ∈ add r x ↔ y ∈ r ∨ y = x := by
  unfold add
  split
  · constructor
    · exact Or.inl
    · rintro (h | rfl) <;> assumption
  · simp

theorem mem_addAll {l r : List El} {y : El} : y ∈ addAll r l ↔ y ∈ r ∨ y ∈ l := by
  unfold addAll
  induction l generalizing r with
  | nil => simp
  | cons a t ih =>
    rw [List.foldl_cons, ih, mem_add]
    simp [or_assoc]

theorem nodup_add {r : List El} {x : El} (h : r.Nodup) : (add r x).Nodup := by
  unfold add
  split
  · exact h
  · rename_i hx
    rw [List.nodup_append]
    refine ⟨h, by simp, ?_⟩
    rintro a ha b hb rfl
    simp only [List.mem_singleton] at hb
    subst hb; exact hx ha

theorem nodup_addAll {l r : List El} (h : r.Nodup) : (addAll r l).Nodup := by
  unfold addAll
  induction l generalizing r with
  | nil => exact h
  | cons a t ih => rw [List.foldl_cons]; exact ih (nodup_add h)

/-- What `process` adds is what the element pulls in. -/
theorem process_pulls (info : Oid → Info) (o : Oid) (x : El) :
    x ∈ (process info (.obj o)).1 ↔ Pulls info o x := by
  constructor
  · intro h
    cases hi : info o with
    | group cls members =>
      simp only [process, hi] at h
      rcases List.mem_cons.1 h with rfl | h
      · exact .groupLabel hi
      · exact .member hi h
    | host target =>
      simp only [process, hi] at h
      cases target with
      | none => simp at h
      | some t =>
        simp only [List.mem_cons, List.not_mem_nil, or_false] at h
        rcases h with rfl | rfl
        · exact .target hi
        · exact .names hi
    | named cls =>
      simp only [process, hi, List.mem_singleton] at h; subst h; exact .label hi
    | accessGroup iface =>
      simp only [process, hi, List.mem_cons, List.not_mem_nil, or_false] at h
      rcases h with rfl | rfl
      · exact .iface hi
      · exact .ifaceLabel hi
    | nat a b =>
      simp only [process, hi, List.mem_singleton] at h; subst h; exact .natLabel hi
    | rule r => simp [process, hi] at h
    | plain => simp [process, hi] at h
  · intro h
    cases h with
    | member hi hx => simp [process, hi, hx]
    | groupLabel hi => simp [process, hi]
    | target hi => simp [process, hi]
    | names hi => simp [process, hi]
    | label hi => simp [process, hi]
    | iface hi => simp [process, hi]
    | ifaceLabel hi => simp [process, hi]
    | natLabel hi => simp [process, hi]

theorem process_nobreak (info : Oid → Info) (x y : El) (h : (process info x).2 = false)
    (hy : y ∈ (process info x).1) : y = .str "NAT" := by
  unfold process at h hy
  split at h
  · split at h <;> simp_all
    split at h <;> simp_all
  · simp_all

/-- A state of the `while` loop. -/
structure Inv (info : Oid → Info) (base : List El) (C : El → Prop) (r done : List El) : Prop where
  hasBase : ∀ x ∈ base, x ∈ r
  inC : ∀ x ∈ r, C x
  doneIn : ∀ x ∈ done, x ∈ r
  doneNodup : done.Nodup
  doneClosed : ∀ x ∈ done, ∀ y ∈ (process info x).1, y ∈ r

theorem Inv.step {info : Oid → Info} {base : List El} {C : El → Prop} {r done : List El}
    (hC : ∀ x y, C x → y ∈ (process info x).1 → C y)
    (I : Inv info base C r done) {x : El} (hx : x ∈ r) (hd : x ∉ done) :
    Inv info base C (addAll r (process info x).1) (x :: done) where
  hasBase y hy := mem_addAll.2 (Or.inl (I.hasBase y hy))
  inC y hy := by
    rcases mem_addAll.1 hy with h | h
    · exact I.inC y h
    · exact hC x y (I.inC x hx) h
  doneIn y hy := by
    rcases List.mem_cons.1 hy with rfl | h
    · exact mem_addAll.2 (Or.inl hx)
    · exact mem_addAll.2 (Or.inl (I.doneIn y h))
  doneNodup := List.nodup_cons.2 ⟨hd, I.doneNodup⟩
  doneClosed y hy z hz := by
    rcases List.mem_cons.1 hy with rfl | h
    · exact mem_addAll.2 (Or.inr hz)
    · exact mem_addAll.2 (Or.inl (I.doneClosed y h z hz))

theorem scan_inv {info : Oid → Info} {base : List El} {C : El → Prop}
    (hC : ∀ x y, C x → y ∈ (process info x).1 → C y) :
    ∀ (xs r done : List El), (∀ x ∈ xs, x ∈ r) → Inv info base C r done →
      let s := scan info xs r done
      Inv info base C s.1 s.2.1 ∧
      (s.2.2 = true → done.length < s.2.1.length) ∧
      (s.2.2 = false → (∀ x ∈ xs, x ∈ s.2.1) ∧ (∀ y ∈ s.1, y ∈ r ∨ y = .str "NAT") ∧
        ∀ x ∈ done, x ∈ s.2.1) := by
  intro xs
  induction xs with
  | nil => intro r done _ I; exact ⟨I, by simp [scan], by simp [scan]; exact fun y h => Or.inl h⟩
  | cons x xs ih =>
    intro r done hsub I
    unfold scan
    by_cases hd : x ∈ done
    · simp only [hd, if_true]
      obtain ⟨h1, h2, h3⟩ := ih r done (fun y hy => hsub y (by simp [hy])) I
      refine ⟨h1, h2, ?_⟩
      intro hf
      obtain ⟨h4, h5, h6⟩ := h3 hf
      refine ⟨?_, h5, h6⟩
      intro y hy
      rcases List.mem_cons.1 hy with rfl | hy
      · exact h6 _ hd
      · exact h4 y hy
    · simp only [hd, if_false]
      have I' := I.step hC (hsub x (by simp)) hd
      cases hp : (process info x).2 with
      | true => simp only [if_true]; exact ⟨I', by simp, by simp⟩
      | false =>
        simp only [Bool.false_eq_true, if_false]
        obtain ⟨h1, h2, h3⟩ := ih _ _
          (fun y hy => mem_addAll.2 (Or.inl (hsub y (by simp [hy])))) I'
        refine ⟨h1, ?_, ?_⟩
        · intro ht; have := h2 ht; simp at this ⊢; omega
        · intro hf
          obtain ⟨h4, h5, h6⟩ := h3 hf
          refine ⟨?_, ?_, fun y hy => h6 y (by simp [hy])⟩
          · intro y hy
            rcases List.mem_cons.1 hy with rfl | hy
            · exact h6 _ (by simp)
            · exact h4 y hy
          · intro y hy
            rcases h5 y hy with h | h
            · rcases mem_addAll.1 h with h | h
              · exact Or.inl h
              · exact Or.inr (process_nobreak info x y hp h)
            · exact Or.inr h

theorem nodup_length_le {α : Type} [DecidableEq α] : ∀ (l U : List α), l.Nodup → (∀ x ∈ l, x ∈ U) →
    l.length ≤ U.length := by
  intro l
  induction l with
  | nil => intro U _ _; simp
  | cons a t ih =>
    intro U hn hs
    have ha : a ∈ U := hs a (by simp)
    have hn' := List.nodup_cons.1 hn
    have := ih (U.erase a) hn'.2 (fun x hx => by
      rw [List.mem_erase_of_ne]
      · exact hs x (by simp [hx])
      · rintro rfl; exact hn'.1 hx)
    rw [List.length_erase_of_mem ha] at this
    have hpos : 0 < U.length := List.length_pos_of_mem ha
    simp only [List.length_cons]
    omega

/-- The `while` loop terminates within `|U| + 1` rounds and its result is closed. -/
theorem loop_ok {info : Oid → Info} {base : List El} {C : El → Prop} {U : List El}
    (hC : ∀ x y, C x → y ∈ (process info x).1 → C y) (hU : ∀ x, C x → x ∈ U)
    (order : Nat → List El → List El) (hord : ∀ n r x, x ∈ order n r ↔ x ∈ r) :
    ∀ fuel n r done, Inv info base C r done → U.length < fuel + done.length →
      ∃ r', loop info order fuel n r done = some r' ∧ (∀ x ∈ base, x ∈ r') ∧ (∀ x ∈ r', C x) ∧
        ∀ x ∈ r', ∀ y ∈ (process info x).1, y ∈ r' := by
  intro fuel
  induction fuel with
  | zero =>
    intro n r done I hlt
    have := nodup_length_le done U I.doneNodup (fun x hx => hU x (I.inC x (I.doneIn x hx)))
    omega
  | succ fuel ih =>
    intro n r done I hlt
    have hs := scan_inv hC (order n r) r done (fun x hx => (hord n r x).1 hx) I
    unfold loop
    generalize hscan : scan info (order n r) r done = s at hs
    obtain ⟨r', done', b⟩ := s
    obtain ⟨I', h2, h3⟩ := hs
    cases b with
    | true =>
      have := h2 rfl
      simp only at this ⊢
      exact ih (n + 1) r' done' I' (by omega)
    | false =>
      obtain ⟨h4, h5, h6⟩ := h3 rfl
      refine ⟨r', rfl, I'.hasBase, I'.inC, ?_⟩
      intro x hx y hy
      rcases h5 x hx with h | rfl
      · exact I'.doneClosed x (h4 x ((hord n r x).2 h)) y hy
      · simp [process] at hy

/-! ## the first loop -/

theorem ruleFields_ok {ags : List String} {i : RuleInfo} {p : String} (hp : i.protoName = some p)
    (hid : ∀ s, i.id = some s → s ∉ ags) :
    ruleFields ags i = .ok ([i.protocol, i.srcHost, i.srcPort, i.dstPort, i.dstHost,
      match i.id with | some s => El.str s | .none => El.none] ++
      (if p = "icmp" ∨ p = "icmp6" then i.icmp.toList else []) ++ i.timeRanges) := by
  unfold ruleFields
  rw [hp]
  cases hi : i.id with
  | none => rfl
  | some s => simp [hid s hi]

theorem fields_error_iff (info : Oid → Info) (ags : List String) (x : El) :
    (∃ e, fields info ags x = .error e) ↔ Unresolvable info ags x := by
  unfold Unresolvable
  constructor
  · rintro ⟨e, he⟩
    unfold fields at he
    split at he
    · rename_i o
      refine ⟨o, rfl, ?_⟩
      split at he
      · rename_i r hr
        refine Or.inl ⟨r, hr, ?_⟩
        cases hp : r.protoName with
        | none => exact Or.inl rfl
        | some p =>
          right
          cases hid : r.id with
          | none => rw [ruleFields_ok hp (by simp [hid])] at he; cases he
          | some s =>
            by_cases hm : s ∈ ags
            · exact ⟨s, hm, rfl⟩
            · rw [ruleFields_ok hp (by intro s' hs'; rw [hid] at hs'; cases hs'; exact hm)] at he
              cases he
      · rename_i a b hn
        refine Or.inr ⟨a, b, hn, ?_⟩
        cases a with
        | none => exact Or.inl rfl
        | some a =>
          cases b with
          | none => exact Or.inr rfl
          | some b => simp [sideFields] at he
      · cases he
    · cases he
  · rintro ⟨o, rfl, h⟩
    rcases h with ⟨r, hr, h⟩ | ⟨a, b, hn, h⟩
    · simp only [fields, hr]
      unfold ruleFields
      rcases h with h | ⟨s, hs, hid⟩
      · exact ⟨.attribute, by rw [h]⟩
      · cases hp : r.protoName with
        | none => exact ⟨.attribute, rfl⟩
        | some p => exact ⟨.type, by rw [hid]; simp [hs]⟩
    · simp only [fields, hn]
      rcases h with rfl | rfl
      · exact ⟨.attribute, rfl⟩
      · cases a with
        | none => exact ⟨.attribute, rfl⟩
        | some a => exact ⟨.attribute, rfl⟩

theorem fields_ok_mem {info : Oid → Info} {ags : List String} {x : El} {l : List El}
    (h : fields info ags x = .ok l) (y : El) :
    y ∈ l ↔ ∃ o, x = .obj o ∧ Field info o y := by
  cases x with
  | none => simp [fields] at h; subst h; simp
  | str s => simp [fields] at h; subst h; simp
  | obj o =>
    have hgoal : y ∈ l ↔ Field info o y := by
      cases hi : info o with
      | rule r =>
        simp only [fields, hi] at h
        have hno : ¬ Unresolvable info ags (.obj o) := by
          rw [← fields_error_iff]; rintro ⟨e, he⟩; simp [fields, hi, h] at he
        have hp : ∃ p, r.protoName = some p := by
          cases hp : r.protoName with
          | none => exact absurd ⟨o, rfl, Or.inl ⟨r, hi, Or.inl hp⟩⟩ hno
          | some p => exact ⟨p, rfl⟩
        obtain ⟨p, hp⟩ := hp
        have hid : ∀ s, r.id = some s → s ∉ ags :=
          fun s hs hm => hno ⟨o, rfl, Or.inl ⟨r, hi, Or.inr ⟨s, hm, hs⟩⟩⟩
        rw [ruleFields_ok hp hid] at h
        simp only [Except.ok.injEq] at h
        subst h
        simp only [List.mem_append, List.mem_cons, List.not_mem_nil, or_false]
        constructor
        · rintro (((rfl | rfl | rfl | rfl | rfl | h) | h) | h)
          · exact .protocol hi
          · exact .srcHost hi
          · exact .srcPort hi
          · exact .dstPort hi
          · exact .dstHost hi
          · cases hid' : r.id with
            | none => rw [hid'] at h; subst h; exact .noId hi hid'
            | some s => rw [hid'] at h; subst h; exact .id hi hid'
          · split at h
            · rename_i hpp
              simp only [Option.mem_toList] at h
              refine .icmp hi ?_ h
              rcases hpp with rfl | rfl
              · exact Or.inl hp
              · exact Or.inr hp
            · simp at h
          · exact .timeRange hi h
        · intro hf
          cases hf with
          | protocol h => rw [hi] at h; cases h; simp
          | srcHost h => rw [hi] at h; cases h; simp
          | dstHost h => rw [hi] at h; cases h; simp
          | srcPort h => rw [hi] at h; cases h; simp
          | dstPort h => rw [hi] at h; cases h; simp
          | id h h2 => rw [hi] at h; cases h; rw [h2]; simp
          | noId h h2 => rw [hi] at h; cases h; rw [h2]; simp
          | icmp h h2 h3 =>
            rw [hi] at h; cases h
            rw [hp] at h2
            simp only [Option.some.injEq] at h2
            left; right
            rw [if_pos h2, h3]; simp
          | timeRange h h2 => rw [hi] at h; cases h; exact Or.inr h2
          | natSrc h _ _ => rw [hi] at h; cases h
          | natDst h _ _ => rw [hi] at h; cases h
          | natIface h _ => rw [hi] at h; cases h
          | natService h _ => rw [hi] at h; cases h
      | nat a b =>
        simp only [fields, hi] at h
        cases a with
        | none => simp [sideFields] at h
        | some a =>
          cases b with
          | none => simp [sideFields] at h
          | some b =>
            simp only [sideFields, Except.ok.injEq] at h
            subst h
            simp only [List.mem_append, Option.mem_toList, List.mem_cons, List.not_mem_nil, or_false]
            constructor
            · rintro (((h | h) | (rfl | rfl)) | ((h | h) | (rfl | rfl)))
              · exact .natSrc hi (Or.inl rfl) h
              · exact .natDst hi (Or.inl rfl) h
              · exact .natIface hi (Or.inl rfl)
              · exact .natService hi (Or.inl rfl)
              · exact .natSrc hi (Or.inr rfl) h
              · exact .natDst hi (Or.inr rfl) h
              · exact .natIface hi (Or.inr rfl)
              · exact .natService hi (Or.inr rfl)
            · intro hf
              cases hf with
              | natSrc h h2 h3 =>
                rw [hi] at h; cases h
                rcases h2 with h2 | h2 <;> cases h2 <;> simp [h3]
              | natDst h h2 h3 =>
                rw [hi] at h; cases h
                rcases h2 with h2 | h2 <;> cases h2 <;> simp [h3]
              | natIface h h2 =>
                rw [hi] at h; cases h
                rcases h2 with h2 | h2 <;> cases h2 <;> simp
              | natService h h2 =>
                rw [hi] at h; cases h
                rcases h2 with h2 | h2 <;> cases h2 <;> simp
              | _ h => rw [hi] at h; cases h
      | _ =>
        simp only [fields, hi, Except.ok.injEq] at h
        subst h
        constructor
        · intro h; simp at h
        · intro hf
          cases hf with
          | natSrc h _ _ => rw [hi] at h; cases h
          | natDst h _ _ => rw [hi] at h; cases h
          | natIface h _ => rw [hi] at h; cases h
          | natService h _ => rw [hi] at h; cases h
          | _ h => rw [hi] at h; cases h
    rw [hgoal]
    constructor
    · intro h; exact ⟨o, rfl, h⟩
    · rintro ⟨o', h1, h2⟩; cases h1; exact h2

theorem seed_error_iff (info : Oid → Info) (ags : List String) :
    ∀ (xs r : List El), (∃ e, seed info ags xs r = .error e) ↔
      ∃ x ∈ xs, ∃ e, fields info ags x = .error e := by
  intro xs
  induction xs with
  | nil => intro r; simp [seed]
  | cons x t ih =>
    intro r
    unfold seed
    cases hf : fields info ags x with
    | error e => simp [hf]
    | ok l =>
      simp only [ih, List.mem_cons, exists_eq_or_imp, hf]
      simp

theorem seed_ok {info : Oid → Info} {ags : List String} :
    ∀ {xs r r' : List El}, seed info ags xs r = .ok r' → ∀ y, y ∈ r' ↔
      y ∈ r ∨ ∃ o, .obj o ∈ xs ∧ Field info o y := by
  intro xs
  induction xs with
  | nil => intro r r' h y; simp [seed] at h; subst h; simp
  | cons x t ih =>
    intro r r' h y
    unfold seed at h
    cases hf : fields info ags x with
    | error e => rw [hf] at h; cases h
    | ok l =>
      rw [hf] at h
      rw [ih h y, mem_addAll, fields_ok_mem hf y]
      constructor
      · rintro ((h | ⟨o, rfl, h⟩) | ⟨o, ho, h⟩)
        · exact Or.inl h
        · exact Or.inr ⟨o, by simp, h⟩
        · exact Or.inr ⟨o, by simp [ho], h⟩
      · rintro (h | ⟨o, ho, h⟩)
        · exact Or.inl (Or.inl h)
        · rcases List.mem_cons.1 ho with rfl | ho
          · exact Or.inl (Or.inr ⟨o, rfl, h⟩)
          · exact Or.inr ⟨o, ho, h⟩

/-- **C43.** On every finite object graph, cyclic or not, and for every order in which the sets are
iterated, `resolve` needs at most `|U| + 1` rounds, and when it returns, it returns exactly the
closure of the selection. -/
theorem C43_resolve_is_closure (info : Oid → Info) (ags : List String) (sel U : List El)
    (hfin : FiniteGraph info sel U)
    (order0 : List El → List El) (order : Nat → List El → List El)
    (h0 : ∀ r x, x ∈ order0 r ↔ x ∈ r) (hord : ∀ n r x, x ∈ order n r ↔ x ∈ r)
    (hok : ∀ x ∈ sel, ¬ Unresolvable info ags x) (fuel : Nat) (hfuel : U.length < fuel) :
    ∃ r, resolve info ags fuel order0 order sel = .ok (some r) ∧
      ∀ x, x ∈ r ↔ Closure info sel x := by
  unfold resolve
  cases hs : seed info ags (order0 sel) sel with
  | error e =>
    obtain ⟨x, hx, he⟩ := (seed_error_iff info ags (order0 sel) sel).1 ⟨e, hs⟩
    exact absurd ((fields_error_iff info ags x).1 he) (hok x ((h0 sel x).1 hx))
  | ok r0 =>
    have hr0 := seed_ok hs
    have hr0' : ∀ y, y ∈ r0 ↔ y ∈ sel ∨ ∃ o, .obj o ∈ sel ∧ Field info o y := by
      intro y; rw [hr0 y]
      constructor
      · rintro (h | ⟨o, ho, h⟩)
        · exact Or.inl h
        · exact Or.inr ⟨o, (h0 _ _).1 ho, h⟩
      · rintro (h | ⟨o, ho, h⟩)
        · exact Or.inl h
        · exact Or.inr ⟨o, (h0 _ _).2 ho, h⟩
    have hC : ∀ x y, Closure info sel x → y ∈ (process info x).1 → Closure info sel y := by
      intro x y hx hy
      cases x with
      | obj o => exact .pull hx ((process_pulls info o y).1 hy)
      | none => simp [process] at hy
      | str s => simp [process] at hy
    have hU : ∀ x, Closure info sel x → x ∈ U := by
      intro x hx
      induction hx with
      | selected h => exact hfin.1 _ h
      | field h h2 => exact hfin.2.1 _ _ h h2
      | pull _ h2 ih => exact hfin.2.2 _ _ ih h2
    have I : Inv info r0 (Closure info sel) r0 [] := by
      refine ⟨fun x h => h, ?_, by simp, by simp, by simp⟩
      intro x hx
      rcases (hr0' x).1 hx with h | ⟨o, ho, h⟩
      · exact .selected h
      · exact .field ho h
    obtain ⟨r, hl, hb, hc, hcl⟩ := loop_ok hC hU order hord fuel 0 r0 [] I (by simpa using hfuel)
    refine ⟨r, by simp only [hl], ?_⟩
    intro x
    constructor
    · exact hc x
    · intro hx
      induction hx with
      | selected h => exact hb _ ((hr0' _).2 (Or.inl h))
      | field h h2 => exact hb _ ((hr0' _).2 (Or.inr ⟨_, h, h2⟩))
      | pull _ h2 ih => exact hcl _ ih _ ((process_pulls info _ _).2 h2)

/-- **C44, the part that holds**: `resolve` raises exactly when an element of the selection is
unresolvable (whatever the order of iteration). -/
theorem C44_raises_iff_partial (info : Oid → Info) (ags : List String) (sel : List El)
    (order0 : List El → List El) (order : Nat → List El → List El)
    (h0 : ∀ r x, x ∈ order0 r ↔ x ∈ r) (fuel : Nat) :
    (∃ e, resolve info ags fuel order0 order sel = .error e) ↔ ∃ x ∈ sel, Unresolvable info ags x := by
  have key : (∃ e, seed info ags (order0 sel) sel = .error e) ↔
      ∃ x ∈ sel, Unresolvable info ags x := by
    rw [seed_error_iff]
    constructor
    · rintro ⟨x, hx, h⟩; exact ⟨x, (h0 _ _).1 hx, (fields_error_iff info ags x).1 h⟩
    · rintro ⟨x, hx, h⟩; exact ⟨x, (h0 _ _).2 hx, (fields_error_iff info ags x).2 h⟩
  rw [← key]
  unfold resolve
  cases hs : seed info ags (order0 sel) sel with
  | error e => simp
  | ok r => simp

/-- A rule of the list `acl-in`. -/
def sampleRule : RuleInfo :=
  { protocol := .obj 2, protoName := some "tcp", srcHost := .obj 3, srcPort := .none, dstPort := .none,
    dstHost := .obj 4, id := some "acl-in", icmp := .none, timeRanges := [] }

/-- A rule with a group that contains itself and a host with a name. -/
def sampleInfo : Oid → Info
  | 1 => .rule sampleRule
  | 3 => .group "NetworkGroup" [.obj 3, .obj 5]
  | 5 => .host (some (.obj 6))
  | _ => .plain

/-- **C44 is violated**: selecting a rule whose list is bound to an IOS interface raises TypeError. -/
theorem C44_violated (order : Nat → List El → List El) (fuel : Nat) :
    resolve sampleInfo ["acl-in"] fuel id order [.obj 1] = .error .type := by
  rfl

/-- The same rule without the interface: the hypotheses of C43 are met, with a cyclic group. -/
theorem C43_sample :
    FiniteGraph sampleInfo [.obj 1]
      [.obj 1, .obj 2, .obj 3, .obj 4, .obj 5, .obj 6, .none, .str "acl-in", .str "NetworkGroup",
       .str "Names"] ∧
    (∀ x ∈ [El.obj 1], ¬ Unresolvable sampleInfo [] x) ∧
    resolve sampleInfo [] 11 id (fun _ r => r.reverse) [.obj 1] =
      .ok (some [.obj 1, .obj 2, .obj 3, .none, .obj 4, .str "acl-in", .str "NetworkGroup", .obj 5,
        .obj 6, .str "Names"]) := by
  have hinfo : ∀ o, sampleInfo o = .plain ∨ o = 1 ∨ o = 3 ∨ o = 5 := by
    intro o
    unfold sampleInfo
    split <;> simp
  refine ⟨⟨by simp, ?_, ?_⟩, ?_, by decide +kernel⟩
  · intro o x ho hf
    simp only [List.mem_cons, El.obj.injEq, List.not_mem_nil, or_false] at ho
    subst ho
    have hi : sampleInfo 1 = .rule sampleRule := rfl
    cases hf with
    | natSrc h _ _ => rw [hi] at h; cases h
    | natDst h _ _ => rw [hi] at h; cases h
    | natIface h _ => rw [hi] at h; cases h
    | natService h _ => rw [hi] at h; cases h
    | id h h2 => rw [hi] at h; cases h; simp [sampleRule] at h2; subst h2; simp
    | noId h h2 => rw [hi] at h; cases h; simp [sampleRule] at h2
    | icmp h h2 _ => rw [hi] at h; cases h; simp [sampleRule] at h2
    | timeRange h h2 => rw [hi] at h; cases h; simp [sampleRule] at h2
    | _ h => rw [hi] at h; cases h; simp [sampleRule]
  · intro o x ho hp
    rcases hinfo o with h | rfl | rfl | rfl
    · have := (process_pulls sampleInfo o x).2 hp
      simp [process, h] at this
    · have := (process_pulls sampleInfo 1 x).2 hp
      simp [process, sampleInfo] at this
    · have := (process_pulls sampleInfo 3 x).2 hp
      simp [process, sampleInfo] at this
      rcases this with rfl | rfl | rfl <;> simp
    · have := (process_pulls sampleInfo 5 x).2 hp
      simp [process, sampleInfo] at this
      rcases this with rfl | rfl <;> simp
  · intro x hx hu
    simp only [List.mem_cons, List.not_mem_nil, or_false] at hx
    subst hx
    rw [← fields_error_iff] at hu
    obtain ⟨e, he⟩ := hu
    simp [fields, sampleInfo, ruleFields, sampleRule] at he

end Acltk.Resolve
