import Verif.Props.FwsmFile
/-!
# C78: periodic time ranges with several days

The configuration guide allows `periodic Monday Wednesday 8:00 to 17:00`.  The grammar has `days:{day_of_the_week}+` without white
space between the days, so no such line is ever read.
-/
namespace Acltk.FwsmText
open Acltk Acltk.Lookup Acltk.Peg Acltk.AclText

variable {α β : Type}

/-- Whatever the rule accepts, the value satisfies `Q`. -/
def Yields (p : P α) (Q : α → Prop) : Prop := ∀ t a r, p t = .ok a r → Q a

theorem Yields.bind {p : P α} {f : α → P β} {R : α → Prop} {Q : β → Prop} (h : Yields p R) (hf : ∀ a, R a → Yields (f a) Q) :
    Yields (p >>= f) Q := by
  intro t b r hb
  obtain ⟨a, s, h1, h2⟩ := bind_inv hb
  exact hf a (h _ _ _ h1) _ _ _ h2

theorem Yields.bind' {p : P α} {f : α → P β} {Q : β → Prop} (hf : ∀ a, Yields (f a) Q) : Yields (p >>= f) Q :=
  Yields.bind (R := fun _ => True) (fun _ _ _ _ => trivial) (fun a _ => hf a)

theorem Yields.pure {a : α} {Q : α → Prop} (h : Q a) : Yields (pure a : P α) Q := by
  intro t b r hb; cases hb; exact h

theorem Yields.alt {p q : P α} {Q : α → Prop} (h1 : Yields p Q) (h2 : Yields q Q) : Yields (Peg.alt p q) Q := by
  intro t a r h
  rcases alt_inv h with h | h
  · exact h1 _ _ _ h
  · exact h2 _ _ _ h

theorem Yields.nil {Q : α → Prop} : Yields (alts []) Q := by intro t a r h; cases h

theorem Yields.cons {p : P α} {l : List (P α)} {Q : α → Prop} (h1 : Yields p Q) (h2 : Yields (alts l) Q) :
    Yields (alts (p :: l)) Q := Yields.alt h1 h2

theorem Yields.alts {l : List (P α)} {Q : α → Prop} (h : ∀ p ∈ l, Yields p Q) : Yields (alts l) Q := by
  induction l with
  | nil => exact .nil
  | cons p l ih => exact .cons (h p (by simp)) (ih (fun q hq => h q (by simp [hq])))

theorem Yields.act {x : Py α} {Q : α → Prop} (h : ∀ a, x = .ok a → Q a) : Yields (Peg.act x) Q := by
  intro t a r hb
  obtain ⟨c, rfl, -, h2⟩ := reads_act x _ _ _ hb
  exact h a h2

theorem Yields.many {p : P α} {Q : α → Prop} (h : Yields p Q) : Yields (many p) (fun l => ∀ x ∈ l, Q x) := by
  intro t
  generalize hn : t.length = n
  induction n using Nat.strongRecOn generalizing t with
  | _ n ih =>
    intro a r hm
    rw [Peg.many] at hm
    generalize hp : p t = v at hm
    cases v with
    | fail => cases hm; simp
    | raise e => cases hm
    | ok b s =>
      simp only at hm
      split at hm
      · generalize hq : Peg.many p s = w at hm
        cases w with
        | fail => cases hm
        | raise e => cases hm
        | ok l u =>
          cases hm
          have := ih s.length (by omega) s rfl _ _ hq
          intro x hx
          rcases List.mem_cons.1 hx with rfl | hx
          · exact h _ _ _ hp
          · exact this x hx
      · cases hm; simp

/-- The object names one day (or one of the words for several days). -/
def OneDay : TimeObj → Prop
  | .absolute _ _ => True
  | .periodic ds _ _ _ => ds.length = 1

/-- Every periodic entry of the item names one day. -/
def OneDayItem : Item → Prop
  | .timeRange _ _ l => ∀ x ∈ l, OneDay x
  | _ => True

theorem oneOf_guard {g : Guard} {l : List String} {t r : Text} {a : String} (h : oneOf g l t = .ok a r) : a ∈ l ∧ g a r = true := by
  induction l with
  | nil => cases h
  | cons w l ih =>
    rw [oneOf] at h
    rcases alt_inv h with h | h
    · unfold tok token at h
      by_cases hp : w.toList.isPrefixOf t = true
      · by_cases hr : g w (t.drop w.toList.length) = true
        · simp only [hp, hr, if_true] at h
          cases h
          exact ⟨by simp, hr⟩
        · simp [hp, hr] at h
      · simp [hp] at h
    · obtain ⟨h1, h2⟩ := ih h
      exact ⟨by simp [h1], h2⟩

theorem weekday_shape : ∀ w ∈ weekdays, (∃ a l, w.toList = a :: l ∧ a.isAlpha = true) ∧ (∀ d ∈ w.toList, d.isAlphanum = true) := by
  intro w hw
  have : ∀ w ∈ weekdays, (w.toList.head?.any Char.isAlpha && w.toList.all Char.isAlphanum) = true := by decide
  have h := this w hw
  simp only [Bool.and_eq_true, List.all_eq_true] at h
  refine ⟨?_, h.2⟩
  cases hl : w.toList with
  | nil => rw [hl] at h; simp at h
  | cons a l => rw [hl] at h; exact ⟨a, l, rfl, by simpa using h.1⟩

/-- Behind a weekday no weekday is found. -/
theorem weekday_once {g : Guard} (hg : NameGuard g) {t r : Text} {a : String} (h : oneOf g weekdays t = .ok a r) :
    oneOf g weekdays r = .fail := by
  obtain ⟨h1, h2⟩ := oneOf_guard h
  apply oneOf_all_fail
  intro k hk
  generalize hv : tok g k r = v
  cases v with
  | fail => rfl
  | raise e => exact absurd hv (tok_noRaise _ _ _)
  | ok b s =>
    obtain ⟨c, rfl, rfl, rfl⟩ := reads_tok g k _ _ _ hv
    obtain ⟨⟨x, l, hx, hxa⟩, -⟩ := weekday_shape _ hk
    rw [hx] at h2
    obtain ⟨s1, s2⟩ := weekday_shape _ h1
    rw [List.cons_append, hg.refuses a x _ s1 s2 (by simp [Char.isAlphanum, hxa])] at h2
    cases h2

theorem days_one {g : Guard} (hg : NameGuard g) : Yields (many1 (oneOf g weekdays)) (fun l => l.length = 1) := by
  intro t a r h
  unfold many1 at h
  generalize hp : oneOf g weekdays t = v at h
  cases v with
  | fail => cases h
  | raise e => cases h
  | ok b s =>
    have hf := weekday_once hg hp
    have : Peg.many (oneOf g weekdays) s = .ok [] s := by rw [Peg.many, hf]
    simp only [this] at h
    cases h
    rfl

theorem timeRangeObject_yields {g : Guard} (hg : NameGuard g) :
    Yields (timeRangeObject g) (fun o => ∀ x, o = some x → OneDay x) := by
  unfold timeRangeObject
  refine .cons ?_ (.cons ?_ (.cons ?_ (.cons ?_ .nil)))
  · refine .bind' fun _ => .bind' fun _ => .bind (days_one hg) fun d hd => ?_
    repeat' refine .bind' fun _ => ?_
    refine .pure ?_
    rintro x ⟨⟩
    exact hd
  · repeat' refine .bind' fun _ => ?_
    refine .pure ?_
    rintro x ⟨⟩
    rfl
  · repeat' refine .bind' fun _ => ?_
    refine .pure ?_
    rintro x ⟨⟩
    trivial
  · repeat' refine .bind' fun _ => ?_
    refine .pure ?_
    rintro x ⟨⟩

/-- The item has the property, and the parser's token guard is the same as before. -/
def StepOk (s : St) (p : Item × St) : Prop := OneDayItem p.1 ∧ p.2.env.guard = s.env.guard

theorem timeRange_yields (s : St) (hg : NameGuard s.env.guard) : Yields (timeRange s) (StepOk s) := by
  unfold timeRange
  refine .bind' fun _ => .bind' fun _ => .bind' fun _ => .bind' fun _ => ?_
  refine .bind (R := fun l => ∀ o ∈ l, ∀ x, o = some x → OneDay x) (Yields.many (.bind' fun _ => timeRangeObject_yields hg)) fun l hl => ?_
  refine .bind (R := fun l => ∀ x ∈ l, OneDay x) (.act ?_) fun l hl => .pure ⟨hl, rfl⟩
  intro a ha
  cases l with
  | nil => cases ha; simp
  | cons o l =>
    cases o with
    | none => cases ha
    | some b =>
      cases ha
      intro x hx
      rcases List.mem_cons.1 hx with rfl | hx
      · exact hl _ (by simp) _ rfl
      · simp only [List.mem_filterMap, id_eq, exists_eq_right] at hx
        exact hl _ (by simp [hx]) _ rfl

/-- Any rule whose values are pairs made at its end of an item that is no time range. -/
macro "no_time" : tactic => `(tactic| (
  repeat' first
    | exact Yields.nil
    | (refine Yields.pure ?_; trivial)
    | (refine Yields.pure ?_; exact ⟨trivial, rfl⟩)
    | (refine Yields.pure ?_; (repeat' split) <;> trivial)
    | refine Yields.cons ?_ ?_
    | refine Yields.alt ?_ ?_
    | refine Yields.bind' fun _ => ?_))

theorem nat_yields (s : St) : Yields (nat s) OneDayItem := by
  have : ∀ n, OneDayItem (natItem n) := by intro n; cases n <;> trivial
  unfold nat
  no_time
  exact Yields.pure (this _)

theorem command_yields (s : St) (hg : NameGuard s.env.guard) : Yields (command s) (StepOk s) := by
  have keepY : ∀ {p : P Item}, Yields p OneDayItem → Yields (keep s p) (StepOk s) := by
    intro p h
    exact .bind h fun a ha => .pure ⟨ha, rfl⟩
  unfold command
  refine .cons (keepY ?_) (.cons (keepY ?_) (.cons (keepY ?_) (.cons ?_ (.cons ?_ (.cons (timeRange_yields s hg) (.cons ?_
    (.cons ?_ (.cons (keepY ?_) (.cons (keepY ?_) (.cons (keepY ?_) (.cons (keepY (nat_yields s)) (.cons (keepY ?_) (.cons (keepY ?_) .nil)))))))))))))
  · unfold version; no_time
  · unfold hostname; no_time
  · unfold domainName; no_time
  · unfold interface; no_time
  · unfold name; no_time
  · unfold object objectNetwork objectService; no_time
  · unfold objectGroup objectGroupType; no_time
  · no_time
  · no_time
  · unfold accessGroup; no_time
  · unfold ignored
    refine .alts ?_
    intro p hp
    obtain ⟨kt, -, rfl⟩ := List.mem_map.1 hp
    no_time
  · no_time

theorem commands_oneDay (s : St) (hg : NameGuard s.env.guard) (t : Text) (l : List Item) (s' : St) (r : Text)
    (h : commands s t = .ok (l, s') r) : ∀ i ∈ l, OneDayItem i := by
  generalize hn : t.length = n
  induction n using Nat.strongRecOn generalizing s t l s' r with
  | _ n ih =>
    rw [commands] at h
    generalize hp : command s t = v at h
    cases v with
    | fail => cases h; simp
    | raise e => cases h
    | ok a u =>
      obtain ⟨i, s1⟩ := a
      obtain ⟨h1, h2⟩ := command_yields s hg _ _ _ hp
      simp only at h h1 h2
      split at h
      · rename_i hl
        generalize hq : commands s1 u = w at h
        cases w with
        | fail => cases h
        | raise e => cases h
        | ok b x =>
          obtain ⟨m, s2⟩ := b
          cases h
          have := ih u.length (by omega) s1 (h2 ▸ hg) u m _ _ hq rfl
          intro j hj
          rcases List.mem_cons.1 hj with rfl | hj
          · exact h1
          · exact this j hj
      · cases h; simp

/-- **C78**, what holds: in whatever text is accepted, a periodic entry of a time range names a single day, or is one of the words for
several days.  (That such entries are read as written is C71.) -/
theorem C78_single_day_partial (g : Guard) (hg : NameGuard g) (text : Text) (items : List Item) (h : parseFile g text = .ok items []) :
    ∀ o n l, Item.timeRange o n l ∈ items → ∀ days a e b, TimeObj.periodic days a e b ∈ l → days.length = 1 := by
  intro o n l hm days a e b hx
  unfold parseFile at h
  generalize hc : commands { env := { guard := g } } text = v at h
  cases v with
  | fail => cases h
  | raise e => cases h
  | ok x r =>
    obtain ⟨m, s'⟩ := x
    cases r with
    | cons c r => cases h
    | nil =>
      simp only at h
      split at h
      · cases h
      · cases h
        exact commands_oneDay _ hg _ _ _ _ hc _ hm _ hx

/-- A line that names two days in front of the time. -/
theorem timeRangeObject_two_days {g : Guard} (hg : GuardOk g) (d1 d2 : String) (h1 : d1 ∈ weekdays) (h2 : d2 ∈ weekdays)
    (b1 b2 rest : Text) (n1 : b1 ≠ []) (n2 : b2 ≠ []) (k1 : Blanks b1) (k2 : Blanks b2) :
    timeRangeObject g ("periodic".toList ++ (b1 ++ (d1.toList ++ (b2 ++ (d2.toList ++ rest))))) = .fail := by
  have hw : ∀ (d : String) (h : d ∈ weekdays) (t : Text), ∀ c ∈ (d.toList ++ t).head?, c ≠ ' ' ∧ c ≠ '\t' := by
    intro d h t c hc
    exact word_head (weekday_word h) t c hc
  have noTime : ∀ t, time (d2.toList ++ t) = .fail := by
    intro t
    obtain ⟨⟨x, l, hx, ha⟩, -⟩ := weekday_shape d2 h2
    rw [hx]
    apply bind_fail
    apply bind_fail
    apply bind_fail
    apply pat_fail
    have : x.isDigit = false := by
      have : ∀ w ∈ weekdays, (w.toList.head?.all (fun c => !c.isDigit)) = true := by decide
      have := this d2 h2
      rw [hx] at this
      simpa using this
    simp [Re.run, this]
  have e1 : EndOfWord (b1 ++ (d1.toList ++ (b2 ++ (d2.toList ++ rest)))) := blanks_end n1 k1
  have e2 : EndOfWord (b2 ++ (d2.toList ++ rest)) := blanks_end n2 k2
  unfold timeRangeObject
  have t1 := tok_self hg (k := "periodic") (by decide) e1
  have w1 := ws_ok n1 k1 (hw d1 h1 (b2 ++ (d2.toList ++ rest)))
  rw [alts_fail (by
    rw [bind_ok t1, bind_ok w1,
      bind_ok (many1_ok (oneOf_word hg e2 (kwNoBlank (by decide +kernel)) (find_weekdays d1 h1))
        (many_fail (oneOf_at_end hg (by decide +kernel) (by decide +kernel) e2))), bind_ok (ws_ok n2 k2 (hw d2 h2 rest))]
    exact bind_fail (noTime rest)), alts_fail (by
    rw [bind_ok t1, bind_ok w1]
    apply bind_fail
    refine oneOf_first_no hg (by decide +kernel) ?_ e2
    exact (by decide +kernel : ∀ d ∈ weekdays, ∀ k ∈ ["weekdays", "weekend", "daily"], mayMatch d k = false) d1 h1)]
  have no : ∀ k ∈ ["absolute", "no"], tok g k ("periodic".toList ++ (b1 ++ (d1.toList ++ (b2 ++ (d2.toList ++ rest))))) = .fail := by
    intro k hk
    have e : "periodic".toList = 'p' :: "eriodic".toList := by decide
    rw [e, List.cons_append]
    simp only [List.mem_cons, List.not_mem_nil, or_false] at hk
    rcases hk with rfl | rfl <;> exact tok_char (by decide) (by decide)
  rw [alts_fail (bind_fail (no _ (by simp))), alts_fail (bind_fail (no _ (by simp)))]
  rfl

/-- No command begins with a blank. -/
theorem command_on_blank (s : St) (t : Text) : command s (' ' :: t) = .fail := by
  rw [command_last (version_no (by intro c hc; simp at hc; subst hc; decide)) (skips_char (by decide) t)]
  rw [alts_fail (keep_fail ?_), alts_fail (keep_fail (bind_fail rfl))]
  · rfl
  · unfold ignored
    have : ∀ l : List (String × Tail), (∀ kt ∈ l, kt.1.toList ≠ [] ∧ ∀ d ∈ kt.1.toList.head?, d ≠ ' ') →
        alts (l.map (fun kt => (do
          let _ ← tok s.env.guard kt.1
          tail kt.2
          pure Item.nothing : P Item))) (' ' :: t) = .fail := by
      intro l hl
      induction l with
      | nil => rfl
      | cons kt l ih =>
        rw [List.map_cons, alts_fail (bind_fail (tok_char (hl kt (by simp)).2 (hl kt (by simp)).1))]
        exact ih (fun x hx => hl x (by simp [hx]))
    exact this _ (by decide +kernel)

/-- **C78** fails: a configuration that begins with a time range whose first entry names two days is refused, whatever the days
and whatever follows. -/
theorem C78_violated (g : Guard) (hg : NameGuard g) (w : String) (hw : UrlWord w) (l : List Char) (hl : Bare ["time-range", w] l)
    (d1 d2 : String) (h1 : d1 ∈ Words.weekdays) (h2 : d2 ∈ Words.weekdays)
    (b1 b2 rest : Text) (n1 : b1 ≠ []) (n2 : b2 ≠ []) (k1 : Blanks b1) (k2 : Blanks b2) :
    parseFile g (l ++ (' ' :: ("periodic".toList ++ (b1 ++ (d1.toList ++ (b2 ++ (d2.toList ++ rest))))))) = .fail := by
  have hgo : GuardOk g := ⟨hg.passes, hg.refuses⟩
  have hwk : Word "time-range" := kwWord (by decide)
  generalize hu : ("periodic".toList ++ (b1 ++ (d1.toList ++ (b2 ++ (d2.toList ++ rest))))) = u
  have hf := timeRangeObject_two_days hgo d1 d2 h1 h2 b1 b2 rest n1 n2 k1 k2
  rw [hu] at hf
  have sta := sta_of_bare hl (rest := ' ' :: u)
  have hlen : (' ' :: u).length < (l ++ ' ' :: u).length := by
    obtain ⟨t1, e, -⟩ := sta
    have hlne : l ≠ [] := by
      rintro rfl
      have := congrArg List.head? e
      simp at this
    cases l with
    | nil => exact absurd rfl hlne
    | cons => simp; omega
  have hc : command { env := { guard := g } } (l ++ ' ' :: u) = .ok (.timeRange 0 w [],
      { env := { guard := g, timeRanges := dSet [] w 0 }, next := 1 }) (' ' :: u) := by
    obtain ⟨t0, ht0, e0, -⟩ := sta.word
    refine command_timeRange ?_ ?_ ?_
    · rw [ht0]
      exact version_no (by intro c hc; simp at hc; subst hc; decide)
    · intro k hk hne
      rw [ht0]
      exact skips_word hgo hwk e0 k hk (Ne.symm hne)
    · obtain ⟨t1, s1, f1⟩ := kw_step hgo sta (by decide) hw.word
      obtain ⟨t2, rfl, e2, s2⟩ := s1.word
      unfold timeRange
      rw [f1, bind_ok (stringP_read hw e2), bind_ok s2.nl,
        bind_ok (show indented (timeRangeObject g) (' ' :: u) = .ok [] (' ' :: u) from many_fail (by
          rw [bind_ok (show sp (' ' :: u) = .ok () u from rfl)]; exact hf)),
        bind_ok (act_ok (show addAll ([] : List (Option TimeObj)) = .ok [] from rfl) _), String.ofList_toList]
      rfl
  have hc2 : commands { env := { guard := g } } (l ++ ' ' :: u) = .ok ([.timeRange 0 w []],
      { env := { guard := g, timeRanges := dSet [] w 0 }, next := 1 }) (' ' :: u) := by
    rw [commands, hc]
    simp only [hlen, if_true]
    rw [commands, command_on_blank]
  unfold parseFile
  rw [hc2]

/-- The hypotheses of C78_violated are met. -/
theorem C78_violated_sample : parseFile tatsuGuard "time-range x\n periodic Monday Tuesday 8:00 to 17:00\n".toList = .fail :=
  C78_violated tatsuGuard tatsuGuard_name "x" ⟨by decide, by decide⟩ "time-range x\n".toList (joined_bare "time-range" ["x"])
    "Monday" "Tuesday" (by decide) (by decide) [' '] [' '] " 8:00 to 17:00\n".toList (by decide) (by decide)
    (by intro c hc; simp at hc; exact Or.inl hc) (by intro c hc; simp at hc; exact Or.inl hc)

/-- The single time range of a result. -/
def onePeriodic : Res (List Item) → Option (List TimeObj)
  | .ok [.timeRange _ _ l] [] => some l
  | _ => none

/-- The hypotheses of C78_single_day_partial are met. -/
theorem C78_single_sample : onePeriodic (parseFile tatsuGuard "time-range x\n periodic Monday 8:00 to 17:00\n".toList) =
    some [.periodic ["Monday"] ⟨8, 0⟩ none ⟨17, 0⟩] := by decide +kernel

end Acltk.FwsmText
