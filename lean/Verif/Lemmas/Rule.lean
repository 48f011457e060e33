import Verif.Spec.RuleSpec
import Verif.Lemmas.MeetMain
import Verif.Lemmas.FnmatchMain
namespace Acltk

theorem truthy_iff {s : String} : truthy (some s) = true ↔ s ≠ "" := by
  unfold truthy
  rw [Bool.not_eq_true', ← Bool.not_eq_true, List.isEmpty_iff]
  constructor
  · intro h e; exact h (by rw [e]; rfl)
  · intro h e; apply h; rw [← String.toList_inj, e]; rfl

theorem slashed_wrap (body : String) : slashed ("/" ++ body ++ "/") = true := by
  have : ("/" ++ body ++ "/").toList = '/' :: (body.toList ++ ['/']) := by simp
  unfold slashed; rw [this, ← List.cons_append, List.getLast?_append]; simp

theorem inner_wrap (body : String) : inner ("/" ++ body ++ "/") = body := by
  have : ("/" ++ body ++ "/").toList = '/' :: (body.toList ++ ['/']) := by simp
  unfold inner; rw [this]; simp

theorem slashed_cases {s : String} (h : slashed s = true) : s = "/" ∨ ∃ body, s = "/" ++ body ++ "/" := by
  unfold slashed at h
  simp only [Bool.and_eq_true, beq_iff_eq] at h
  obtain ⟨h1, h2⟩ := h
  cases hl : s.toList with
  | nil => rw [hl] at h1; simp at h1
  | cons c l =>
    rw [hl] at h1 h2
    simp at h1; subst h1
    rcases List.eq_nil_or_concat l with rfl | ⟨l', d, rfl⟩
    · left; rw [← String.toList_inj, hl]; rfl
    · right
      have : d = '/' := by
        rw [List.concat_eq_append, ← List.cons_append, List.getLast?_append] at h2; simpa using h2
      subst this
      refine ⟨String.ofList l', ?_⟩
      rw [← String.toList_inj, hl]; simp

theorem isPattern_unique {s x y : String} (h1 : IsPattern s x) (h2 : IsPattern s y) : x = y := by
  rw [← inner_wrap x, ← inner_wrap y, ← h1.1, ← h2.1]

theorem slash_not_pattern : ∀ x, ¬ IsPattern "/" x := by
  rintro x ⟨h, hx⟩
  have h' := congrArg (fun s => s.toList.length) h
  have : ("/" ++ x ++ "/").toList = '/' :: (x.toList ++ ['/']) := by simp
  simp [this] at h'

theorem slashes_not_pattern : ∀ x, ¬ IsPattern "//" x := by
  rintro x ⟨h, hx⟩
  have : inner "//" = x := by rw [h, inner_wrap]
  apply hx; rw [← this]; rfl

/-- Shape of an id, as the code sees it. -/
theorem id_shape (s : String) :
    (slashed s = true ∧ truthy (some (inner s)) = true ∧ IsPattern s (inner s)) ∨
    (slashed s = true ∧ truthy (some (inner s)) = false ∧ (s = "/" ∨ s = "//") ∧ ∀ x, ¬ IsPattern s x) ∨
    (slashed s = false ∧ s ≠ "/" ∧ s ≠ "//" ∧ ∀ x, ¬ IsPattern s x) := by
  by_cases h : slashed s = true
  · rcases slashed_cases h with rfl | ⟨b, rfl⟩
    · exact .inr (.inl ⟨h, rfl, .inl rfl, slash_not_pattern⟩)
    · by_cases hb : b = ""
      · subst hb
        exact .inr (.inl ⟨h, by rw [inner_wrap]; rfl, .inr rfl, slashes_not_pattern⟩)
      · exact .inl ⟨h, by rw [inner_wrap]; exact truthy_iff.2 hb, by rw [inner_wrap]; exact ⟨rfl, hb⟩⟩
  · refine .inr (.inr ⟨by simpa using h, ?_, ?_, ?_⟩)
    · rintro rfl; exact h rfl
    · rintro rfl; exact h rfl
    · rintro x ⟨rfl, -⟩; exact h (slashed_wrap x)

theorem idCompat_iff (a b : Option String) (sa : SaneId a) (sb : SaneId b) :
    idCompat a b = true ↔ IdsCompatible a b := by
  cases a with
  | none => simp [idCompat, IdsCompatible, Present]
  | some a =>
    cases b with
    | none => simp [idCompat, IdsCompatible, Present]
    | some b =>
      have pres : ∀ s : String, Present (some s) ↔ s ≠ "" := by intro s; simp [Present]
      unfold idCompat IdsCompatible
      rw [pres, pres]
      by_cases ha : a = ""
      · subst ha; simp [truthy]
      · by_cases hb : b = ""
        · subst hb; simp [truthy]
        · have ta := truthy_iff.2 ha
          have tb := truthy_iff.2 hb
          have red : (¬ a ≠ "" ∨ ¬ b ≠ "" ∨ ∃ x y, some a = some x ∧ some b = some y ∧ IdOk x y) ↔ IdOk a b := by
            simp [ha, hb]
          rw [red]
          simp only [ta, tb, Bool.and_self, if_true]
          rcases id_shape a with ⟨s1, s2, s3⟩ | ⟨s1, s2, s3, s4⟩ | ⟨s1, s2, s3, s4⟩
          · simp only [s1, if_true, tb, s2, Bool.and_self]
            rw [Fnmatch.fnmatchcase_iff _ _ (sa a _ rfl s3)]
            constructor
            · exact .left s3
            · intro h
              cases h with
              | left h1 h2 => rw [isPattern_unique s3 h1]; exact h2
              | right h1 => exact absurd s3 (h1 _)
              | equal h1 => exact absurd s3 (h1 _)
          · simp only [s1, if_true, tb, s2, Bool.and_false, Bool.false_eq_true, if_false, beq_iff_eq]
            constructor
            · intro h; exact .equal s4 (fun h1 h2 => by rcases s3 with h | h <;> contradiction) h
            · intro h
              cases h with
              | left h1 => exact absurd h1 (s4 _)
              | right _ h1 h2 => rcases s3 with h | h <;> contradiction
              | equal _ _ h => exact h
          · simp only [s1, Bool.false_eq_true, if_false]
            rcases id_shape b with ⟨t1, t2, t3⟩ | ⟨t1, t2, t3, t4⟩ | ⟨t1, t2, t3, t4⟩
            · simp only [t1, if_true, ta, t2, Bool.and_self]
              rw [Fnmatch.fnmatchcase_iff _ _ (sb b _ rfl t3)]
              constructor
              · exact .right s4 s2 s3 t3
              · intro h
                cases h with
                | left h1 => exact absurd h1 (s4 _)
                | right _ _ _ h1 h2 => rw [isPattern_unique t3 h1]; exact h2
                | equal _ h1 => exact absurd t3 (h1 s2 s3 _)
            · simp only [t1, if_true, ta, t2, Bool.and_false, Bool.false_eq_true, if_false, beq_iff_eq]
              constructor
              · intro h; exact .equal s4 (fun _ _ => t4) h
              · intro h
                cases h with
                | left h1 => exact absurd h1 (s4 _)
                | right _ _ _ h1 => exact absurd h1 (t4 _)
                | equal _ _ h => exact h
            · simp only [t1, Bool.false_eq_true, if_false, beq_iff_eq]
              constructor
              · intro h; exact .equal s4 (fun _ _ => t4) h
              · intro h
                cases h with
                | left h1 => exact absurd h1 (s4 _)
                | right _ _ _ h1 => exact absurd h1 (t4 _)
                | equal _ _ h => exact h

theorem pyAnd_true {x y : Py Bool} : pyAnd x y = .ok true ↔ x = .ok true ∧ y = .ok true := by
  unfold pyAnd
  cases x with
  | error e => simp
  | ok b => cases b <;> simp

theorem pyAnd_total {x y : Py Bool} (hx : ∃ b, x = .ok b) (hy : ∃ b, y = .ok b) : ∃ b, pyAnd x y = .ok b := by
  obtain ⟨b, rfl⟩ := hx; obtain ⟨c, rfl⟩ := hy
  cases b <;> simp [pyAnd]

theorem mem_setAdd {r : List Oid} {x y : Oid} : y ∈ setAdd r x ↔ y ∈ r ∨ y = x := by
  unfold setAdd; split
  · constructor
    · exact .inl
    · rintro (h | rfl) <;> assumption
  · simp

theorem nodup_setAdd {r : List Oid} {x : Oid} (h : r.Nodup) : (setAdd r x).Nodup := by
  unfold setAdd; split
  · exact h
  · rename_i hx
    rw [List.nodup_append]
    exact ⟨h, by simp, by intro a ha b hb; simp at hb; subst hb; rintro rfl; exact hx ha⟩

theorem mem_setUnion {a b : List Oid} {y : Oid} : y ∈ setUnion a b ↔ y ∈ a ∨ y ∈ b := by
  unfold setUnion
  induction b generalizing a with
  | nil => simp
  | cons x b ih => rw [List.foldl_cons, ih, mem_setAdd]; simp [or_assoc]

theorem nodup_setUnion {a b : List Oid} (h : a.Nodup) : (setUnion a b).Nodup := by
  unfold setUnion
  induction b generalizing a with
  | nil => exact h
  | cons x b ih => rw [List.foldl_cons]; exact ih (nodup_setAdd h)

theorem mem_setInter {a b : List Oid} {y : Oid} : y ∈ setInter a b ↔ y ∈ a ∧ y ∈ b := by
  simp [setInter]

theorem mem_setDiff {a b : List Oid} {y : Oid} : y ∈ setDiff a b ↔ y ∈ a ∧ y ∉ b := by
  simp [setDiff]

theorem loopAny_true {α : Type} {f : α → Py Bool} {l : List α} {b : Bool} (h : loopAny f l = .ok b) :
    b = true ↔ ∃ x ∈ l, f x = .ok true := by
  induction l with
  | nil => simp [loopAny] at h; simp [← h]
  | cons x xs ih =>
    unfold loopAny at h
    cases hx : f x with
    | error e => rw [hx] at h; simp at h
    | ok c =>
      rw [hx] at h
      cases c with
      | true => simp at h; subst h; simp [hx]
      | false => simp at h; rw [ih h]; simp [hx]

theorem filterLoop_spec {fuel heap target} : ∀ {rules r r'}, filterLoop fuel heap target rules r = .ok r' →
    r.Nodup → r'.Nodup ∧ ∀ o, o ∈ r' ↔ o ∈ r ∨ (o ∈ rules ∧ ∃ t ∈ target, ruleAnd fuel t (heap o) = .ok true) := by
  intro rules
  induction rules with
  | nil => intro r r' h hn; simp [filterLoop] at h; subst h; simp [hn]
  | cons x rest ih =>
    intro r r' h hn
    unfold filterLoop at h
    cases hx : loopAny (fun t => ruleAnd fuel t (heap x)) target with
    | error e => rw [hx] at h; simp at h
    | ok c =>
      rw [hx] at h
      have hc := loopAny_true hx
      cases c with
      | true =>
        simp only [true_iff] at hc
        obtain ⟨h1, h2⟩ := ih h (nodup_setAdd hn)
        refine ⟨h1, fun o => ?_⟩
        rw [h2, mem_setAdd]
        constructor
        · rintro ((h | rfl) | h)
          · exact .inl h
          · exact .inr ⟨by simp, hc⟩
          · exact .inr ⟨by simp [h.1], h.2⟩
        · rintro (h | ⟨h, h'⟩)
          · exact .inl (.inl h)
          · rcases List.mem_cons.1 h with rfl | h
            · exact .inl (.inr rfl)
            · exact .inr ⟨h, h'⟩
      | false =>
        simp only [Bool.false_eq_true, false_iff] at hc
        obtain ⟨h1, h2⟩ := ih h hn
        refine ⟨h1, fun o => ?_⟩
        rw [h2]
        constructor
        · rintro (h | h)
          · exact .inl h
          · exact .inr ⟨by simp [h.1], h.2⟩
        · rintro (h | ⟨h, h'⟩)
          · exact .inl h
          · rcases List.mem_cons.1 h with rfl | h
            · exact absurd h' hc
            · exact .inr ⟨h, h'⟩

theorem filterLoop_total {fuel heap target} : ∀ {rules r},
    (∀ o ∈ rules, ∀ t ∈ target, ∃ b, ruleAnd fuel t (heap o) = .ok b) →
    ∃ r', filterLoop fuel heap target rules r = .ok r' := by
  intro rules
  induction rules with
  | nil => intro r _; exact ⟨r, rfl⟩
  | cons x rest ih =>
    intro r h
    obtain ⟨b, hb⟩ := loopAny_total (fun t => ruleAnd fuel t (heap x)) target (h x (by simp))
    unfold filterLoop
    rw [hb]
    cases b
    · exact ih (fun o ho => h o (by simp [ho]))
    · exact ih (fun o ho => h o (by simp [ho]))

end Acltk
