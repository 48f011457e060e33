import Verif.Lemmas.TimeWords
import Verif.Props.Section
/-!
# C122: what the section of a time range says
-/
namespace Acltk.Cells
open Acltk Acltk.FwsmText

/-- The first separator splits a text in one way. -/
theorem first_sep {c : Char} {a b u v : List Char} (ha : c ∉ a) (hb : c ∉ b) (h : a ++ c :: u = b ++ c :: v) : a = b ∧ u = v := by
  induction a generalizing b with
  | nil =>
    cases b with
    | nil => exact ⟨rfl, by simpa using h⟩
    | cons y b => simp only [List.nil_append, List.cons_append, List.cons.injEq] at h; exact absurd (h.1 ▸ List.mem_cons_self) hb
  | cons x a ih =>
    cases b with
    | nil => simp only [List.nil_append, List.cons_append, List.cons.injEq] at h; exact absurd (h.1 ▸ List.mem_cons_self) ha
    | cons y b =>
      simp only [List.cons_append, List.cons.injEq] at h
      obtain ⟨e1, e2⟩ := ih (fun m => ha (List.mem_cons_of_mem _ m)) (fun m => hb (List.mem_cons_of_mem _ m)) h.2
      exact ⟨by rw [h.1, e1], e2⟩

/-- So does the last. -/
theorem last_sep {c : Char} {a b u v : List Char} (hu : c ∉ u) (hv : c ∉ v) (h : a ++ c :: u = b ++ c :: v) : a = b ∧ u = v := by
  have h := congrArg List.reverse h
  simp only [List.reverse_append, List.reverse_cons, List.append_assoc, List.singleton_append] at h
  obtain ⟨e1, e2⟩ := first_sep (by simpa using hu) (by simpa using hv) h
  exact ⟨List.reverse_inj.1 e2, List.reverse_inj.1 e1⟩

theorem num_not_mem {s : List Char} {n : Nat} (h : Num s n) {c : Char} (hc : c.isDigit = false) : c ∉ s := fun m => by
  rw [h.digits c m] at hc; cases hc

theorem num_unique {s : List Char} {n m : Nat} (h : Num s n) (h' : Num s m) : n = m := h.value.symm.trans h'.value

theorem num_dec (n : Nat) : Num (decText n) n :=
  ⟨fun _ h => Nat.isDigit_of_mem_toDigits (by omega) (by omega) h, ofDigitChars_decText n⟩

theorem num_pad2 (n : Nat) : Num (pad2 n) n := by
  unfold pad2
  split
  · refine ⟨?_, ?_⟩
    · intro c hc
      rcases List.mem_cons.1 hc with rfl | hc
      · rfl
      · exact (num_dec n).digits c hc
    · rw [Nat.ofDigitChars_cons]
      exact (num_dec n).value
  · exact num_dec n

theorem clock_not_mem {s : List Char} {t : Time} (h : ReadsClock s t) {c : Char} (hc : c.isDigit = false) (h2 : c ≠ ':') : c ∉ s := by
  obtain ⟨a, b, rfl, ha, hb⟩ := h.parts
  simp [num_not_mem ha hc, num_not_mem hb hc, h2]

theorem clock_unique {s : List Char} {t u : Time} (h : ReadsClock s t) (h' : ReadsClock s u) : t = u := by
  obtain ⟨a, b, rfl, ha, hb⟩ := h.parts
  obtain ⟨c, d, e, hc, hd⟩ := h'.parts
  obtain ⟨rfl, rfl⟩ := first_sep (num_not_mem ha rfl) (num_not_mem hc rfl) e
  obtain ⟨th, tm⟩ := t
  obtain ⟨uh, um⟩ := u
  obtain rfl : th = uh := num_unique ha hc
  obtain rfl : tm = um := num_unique hb hd
  rfl

theorem clock_reads (t : Time) : ReadsClock (clockText t) t := ⟨_, _, rfl, num_pad2 _, num_pad2 _⟩

theorem calendar_not_mem : ∀ p ∈ calendar, ' ' ∉ p.1.toList ∧ '-' ∉ p.1.toList := by decide

theorem calendar_unique : ∀ p ∈ calendar, ∀ q ∈ calendar, p.1 = q.1 → p.2 = q.2 := by decide

theorem date_not_mem {s : List Char} {d : Date} (h : ReadsDate s d) : '-' ∉ s := by
  obtain ⟨c, dd, y, m, rfl, hc, hd, hm, hy⟩ := h.parts
  simp [clock_not_mem hc (c := '-') rfl (by decide), num_not_mem hd (c := '-') rfl, num_not_mem hy (c := '-') rfl, (calendar_not_mem _ hm).2]

theorem date_unique {s : List Char} {d d' : Date} (h : ReadsDate s d) (h' : ReadsDate s d') : d = d' := by
  obtain ⟨c, dd, y, m, rfl, hc, hd, hm, hy⟩ := h.parts
  obtain ⟨c', dd', y', m', e, hc', hd', hm', hy'⟩ := h'.parts
  obtain ⟨rfl, e1⟩ := first_sep (clock_not_mem hc rfl (by decide)) (clock_not_mem hc' rfl (by decide)) e
  obtain ⟨rfl, e2⟩ := first_sep (num_not_mem hd rfl) (num_not_mem hd' rfl) e1
  obtain ⟨e3, rfl⟩ := first_sep (calendar_not_mem _ hm).1 (calendar_not_mem _ hm').1 e2
  have e4 := calendar_unique _ hm _ hm' (String.toList_inj.1 e3)
  obtain ⟨t, n, k, z⟩ := d
  obtain ⟨t', n', k', z'⟩ := d'
  obtain rfl : t = t' := clock_unique hc hc'
  obtain rfl : n = n' := num_unique hd hd'
  obtain rfl : k = k' := e4
  obtain rfl : z = z' := num_unique hy hy'
  rfl

theorem month_mem {m : Nat} (h1 : 1 ≤ m) (h2 : m ≤ 12) : (months.getD (m - 1) "", m) ∈ calendar := by
  have : ∀ k, k < 13 → 1 ≤ k → (months.getD (k - 1) "", k) ∈ calendar := by decide
  exact this m (by omega) h1

theorem date_reads {d : Date} (h : DateOk d) : ReadsDate (dateText d) d :=
  ⟨_, _, _, _, rfl, clock_reads _, num_pad2 _, month_mem h.1 h.2, num_dec _⟩

theorem maybe_not_mem {s : List Char} {d : Option Date} (h : ReadsMaybe s d) : '-' ∉ s := by
  cases h with
  | none => simp
  | some h => exact date_not_mem h

theorem not_date_nil {d : Date} : ¬ ReadsDate [] d := fun h => by
  obtain ⟨c, dd, y, m, e, -⟩ := h.parts
  cases c <;> cases e

theorem maybe_unique {s : List Char} {d d' : Option Date} (h : ReadsMaybe s d) (h' : ReadsMaybe s d') : d = d' := by
  cases h with
  | none =>
    cases h' with
    | none => rfl
    | some h' => exact absurd h' not_date_nil
  | some h =>
    cases h' with
    | none => exact absurd h not_date_nil
    | some h' => rw [date_unique h h']

theorem maybe_reads {d : Option Date} (h : ∀ x, d = some x → DateOk x) : ReadsMaybe ((d.map dateText).getD []) d := by
  cases d with
  | none => exact .none
  | some d => exact .some (date_reads (h d rfl))

theorem day_not_mem : ∀ d ∈ dayNames, d.toList ≠ [] ∧ ',' ∉ d.toList ∧ '-' ∉ d.toList ∧ ' ' ∉ d.toList := by decide

theorem day_unique {s : List Char} {d d' : Option String} (h : ReadsDay s d) (h' : ReadsDay s d') : d = d' := by
  generalize hs : s = r at h'
  cases h with
  | none =>
    cases h' with
    | none => rfl
    | some h' => exact absurd hs.symm (day_not_mem _ h').1
  | some h =>
    cases h' with
    | none => exact absurd hs (day_not_mem _ h).1
    | some h' => rw [String.toList_inj.1 hs]

theorem day_reads {d : Option String} (h : ∀ x, d = some x → x ∈ dayNames) : ReadsDay ((d.map String.toList).getD []) d := by
  cases d with
  | none => exact .none
  | some d => exact .some (h d rfl)

theorem day_none {s : List Char} {d : Option String} (h : ReadsDay s d) : '-' ∉ s := by
  cases h with
  | none => simp
  | some h => exact (day_not_mem _ h).2.2.1

theorem days_not_mem {s : List Char} {l : List String} (h : ReadsDays s l) : '-' ∉ s := by
  induction h with
  | one h => exact (day_not_mem _ h).2.2.1
  | more h _ ih => simp [ih, (day_not_mem _ h).2.2.1]

theorem days_unique {s s' : List Char} {l l' : List String} (h : ReadsDays s l) (h' : ReadsDays s' l') (e : s = s') : l = l' := by
  induction h generalizing s' l' with
  | one h =>
    cases h' with
    | one h' => rw [String.toList_inj.1 e]
    | more h' _ => exact absurd (e ▸ List.mem_append_right _ List.mem_cons_self) (day_not_mem _ h).2.1
  | more h hl ih =>
    cases h' with
    | one h' => exact absurd (e ▸ List.mem_append_right _ List.mem_cons_self) (day_not_mem _ h').2.1
    | more h' hl' =>
      obtain ⟨e1, e2⟩ := first_sep (day_not_mem _ h).2.1 (day_not_mem _ h').2.1 e
      rw [String.toList_inj.1 e1, ih hl' (List.cons.inj e2).2]

theorem days_reads {l : List String} (hn : l ≠ []) (h : ∀ d ∈ l, d ∈ dayNames) : ReadsDays (joinDays l) l := by
  induction l with
  | nil => exact absurd rfl hn
  | cons d l ih =>
    cases l with
    | nil => exact .one (h d List.mem_cons_self)
    | cons e l => exact .more (h d List.mem_cons_self) (ih (by simp) fun x hx => h x (List.mem_cons_of_mem _ hx))

theorem iso_not_mem {s : List Char} {t : Time} (h : ReadsClock s t) {c : Char} (hc : c.isDigit = false) (h2 : c ≠ ':') : c ∉ s ++ ":00".toList := by
  intro m
  rcases List.mem_append.1 m with m | m
  · exact clock_not_mem h hc h2 m
  · simp only [String.reduceToList, List.mem_cons, List.not_mem_nil, or_false] at m
    rcases m with rfl | rfl | rfl
    · exact h2 rfl
    · cases hc
    · cases hc

/-- A text is a row of at most one range. -/
theorem timeRange_unique {s : List Char} {x y : TimeObj} (h : ReadsRange s x) (h' : ReadsRange s y) : x = y := by
  generalize hs : s = r at h'
  cases h with
  | absolute ha hb =>
    cases h' with
    | absolute ha' hb' =>
      obtain ⟨rfl, rfl⟩ := first_sep (maybe_not_mem ha) (maybe_not_mem ha') (List.append_cancel_left hs)
      rw [maybe_unique ha ha', maybe_unique hb hb']
    | periodic => simp at hs
  | periodic hd ha he hb =>
    cases h' with
    | absolute => simp at hs
    | periodic hd' ha' he' hb' =>
      have n1 : '-' ∉ _ ++ ' ' :: (_ ++ ":00".toList) := fun m => (List.mem_append.1 m).elim (days_not_mem hd) fun m => (List.mem_cons.1 m).elim (by decide) (iso_not_mem ha rfl (by decide))
      have n2 : '-' ∉ _ ++ ' ' :: (_ ++ ":00".toList) := fun m => (List.mem_append.1 m).elim (days_not_mem hd') fun m => (List.mem_cons.1 m).elim (by decide) (iso_not_mem ha' rfl (by decide))
      obtain ⟨e1, e2⟩ := first_sep n1 n2 (List.append_cancel_left hs)
      obtain ⟨rfl, e3⟩ := last_sep (iso_not_mem ha rfl (by decide)) (iso_not_mem ha' rfl (by decide)) e1
      obtain ⟨rfl, e4⟩ := last_sep (iso_not_mem hb rfl (by decide)) (iso_not_mem hb' rfl (by decide)) e2
      obtain rfl := List.append_cancel_right e3
      obtain rfl := List.append_cancel_right e4
      rw [days_unique hd hd' rfl, clock_unique ha ha', day_unique he he', clock_unique hb hb']

theorem timeRange_reads {o : TimeObj} (h : RangeOk o) : ReadsRange (rangeText o) o := by
  cases o with
  | absolute a b => exact .absolute (maybe_reads h.1) (maybe_reads h.2)
  | periodic l a e b => exact .periodic (days_reads h.1 h.2.1) (clock_reads a) (day_reads h.2.2) (clock_reads b)

theorem each_eq {l m : List TimeObj} : Each (fun a b => b = a) l m ↔ m = l := by
  induction l generalizing m with
  | nil => constructor
           · intro h; cases h; rfl
           · rintro rfl; exact .nil
  | cons a l ih =>
    constructor
    · intro h
      cases h with
      | cons h1 h2 => rw [h1, ih.1 h2]
    · rintro rfl
      exact .cons rfl (ih.2 rfl)

/-- **C122.** Whatever text is accepted, the section of every time range is read as exactly its name and its ranges, in order. -/
theorem C122_section (g : Lookup.Guard) (t u : List Char) (items : List Item) (h : parseFile g t = .ok items u) (o : Nat) (n : String) (l : List TimeObj) (hi : Item.timeRange o n l ∈ items) :
    ∃ c, timeSection (.timeRange o n l) = some c ∧ ∀ (m : String) (xs : List TimeObj), ReadsTime c m xs ↔ m = n ∧ xs = l := by
  have hl : ∀ x ∈ l, RangeOk x := parseFile_times h _ hi
  refine ⟨_, rfl, fun m xs => ?_⟩
  have hr : Each ReadsRange (l.map rangeText) xs ↔ xs = l :=
    (each_iff (S := fun a b => b = a) (fun a ha x => ⟨fun hx => timeRange_unique hx (timeRange_reads (hl a ha)), by rintro rfl; exact timeRange_reads (hl _ ha)⟩) xs).trans each_eq
  constructor
  · intro hc
    exact ⟨(String.toList_inj.1 hc.heading).symm, hr.1 hc.rows⟩
  · rintro ⟨rfl, rfl⟩
    exact ⟨rfl, rfl, hr.2 rfl⟩

/-- Equal sections, also of different texts, are of time ranges of the same name and the same ranges. -/
theorem C122_equal_sections (g g' : Lookup.Guard) (t u t' u' : List Char) (items items' : List Item) (h : parseFile g t = .ok items u) (h' : parseFile g' t' = .ok items' u')
    (o o' : Nat) (n n' : String) (l l' : List TimeObj) (hi : Item.timeRange o n l ∈ items) (hi' : Item.timeRange o' n' l' ∈ items')
    (e : timeSection (.timeRange o n l) = timeSection (.timeRange o' n' l')) : n = n' ∧ l = l' := by
  obtain ⟨c, hc, hr⟩ := C122_section g t u items h o n l hi
  obtain ⟨c', hc', hr'⟩ := C122_section g' t' u' items' h' o' n' l' hi'
  rw [hc, hc'] at e
  cases e
  exact (hr' n l).1 ((hr n l).2 ⟨rfl, rfl⟩)

/-- The sections of the time ranges of a text that is accepted. -/
def timeSections (t : String) : List TimeSection :=
  match parseFile Lookup.tatsuGuard t.toList with
  | .ok l _ => l.filterMap timeSection
  | _ => []

/-- The hypotheses are met: ranges of all kinds. -/
theorem C122_sample :
    timeSections "time-range tr1\n absolute start 08:30 01 January 2020 end 17:00 9 December 2021\n absolute end 00:00 02 March 0900\n periodic Monday 8:00 to Friday 17:30\n periodic daily 6:05 to 7:00\n" =
      [⟨"time_range_tr1", "tr1".toList, ["Absolute 08:30 01 January 2020-17:00 09 December 2021".toList, "Absolute -00:00 02 March 900".toList,
        "Periodic Monday 08:00:00-Friday 17:30:00".toList, "Periodic daily 06:05:00- 07:00:00".toList]⟩] := by
  decide +kernel

end Acltk.Cells
