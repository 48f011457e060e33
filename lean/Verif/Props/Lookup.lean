import Verif.Model.Lookup
/-!
# C40: a reference resolves to the name written
-/
namespace Acltk.Lookup
open Acltk

theorem prefix_lt {x w : List Char} (h : x <+: w) (hne : x ≠ w) : x < w := by
  induction x generalizing w with
  | nil =>
    cases w with
    | nil => exact absurd rfl hne
    | cons a t => exact List.nil_lt_cons a t
  | cons a t ih =>
    cases w with
    | nil => simp at h
    | cons b u =>
      rw [List.cons_prefix_cons] at h
      obtain ⟨rfl, h⟩ := h
      rw [List.cons_lt_cons_iff]
      exact Or.inr ⟨rfl, ih h (fun e => hne (by rw [e]))⟩

theorem mem_descending {names : List String} {n : String} : n ∈ descending names ↔ n ∈ names :=
  (List.mergeSort_perm names _).mem_iff

theorem pairwise_descending (names : List String) :
    (descending names).Pairwise (fun a b => b ≤ a) := by
  have := List.pairwise_mergeSort (le := fun a b : String => decide (b ≤ a))
    (by intro a b c h1 h2; simp only [decide_eq_true_eq] at *; exact String.le_trans h2 h1)
    (by intro a b; simp only [Bool.or_eq_true, decide_eq_true_eq]
        exact (String.le_total b a)) names
  simpa [descending] using this

/-- In a descending list the first match is `w`, when every other match is smaller. -/
theorem findSome_descending {β : Type} {f : String → Option β} {L : List String} {w : String} {v : β}
    (hp : L.Pairwise (fun a b => b ≤ a)) (hw : w ∈ L) (hv : f w = some v)
    (hlt : ∀ x ∈ L, (f x).isSome → x ≠ w → x < w) : L.findSome? f = some v := by
  induction L with
  | nil => simp at hw
  | cons a t ih =>
    rw [List.findSome?_cons]
    by_cases ha : a = w
    · subst ha; rw [hv]
    · have hwt : w ∈ t := by
        rcases List.mem_cons.1 hw with h | h
        · exact absurd h.symm ha
        · exact h
      have hge : w ≤ a := (List.pairwise_cons.1 hp).1 w hwt
      cases hfa : f a with
      | some u =>
        have := hlt a (by simp) (by simp [hfa]) ha
        exact absurd this (by rw [String.not_lt]; exact hge)
      | none =>
        exact ih (List.pairwise_cons.1 hp).2 hwt (fun x hx => hlt x (by simp [hx]))

theorem token_some {guard : Guard} {text : Text} {i : String} {r : String × Text}
    (h : token guard text i = some r) : ∃ rest, text = i.toList ++ rest ∧ r = (i, rest) := by
  unfold token at h
  split at h
  · rename_i hp
    rw [List.isPrefixOf_iff_prefix] at hp
    obtain ⟨rest, hr⟩ := hp
    subst hr
    simp only [List.drop_left] at h
    split at h
    · exact ⟨rest, rfl, by simpa using h.symm⟩
    · cases h
  · cases h

/-- A name without stop characters that starts a text `w ++ s :: rest` with stop character `s` is a
prefix of `w`. -/
theorem prefix_of_word {stop : Char → Bool} {n w : List Char} {s : Char} {rest tail : Text}
    (hn : ∀ c ∈ n, stop c = false) (hs : stop s = true) (h : w ++ s :: rest = n ++ tail) :
    n <+: w := by
  rcases List.append_eq_append_iff.1 h.symm with ⟨a, ha, -⟩ | ⟨a, ha, hb⟩
  · exact ⟨a, ha.symm⟩
  · cases a with
    | nil => simp at ha; exact ⟨[], by simp [ha]⟩
    | cons b a' =>
      simp only [List.cons_append, List.cons.injEq] at hb
      have hb1 : stop b = false := hn b (by simp [ha])
      rw [← hb.1, hs] at hb1
      cases hb1

/-- The general fact behind C40: with names and the written word free of stop characters, the
alternatives pick the written word if it is known, and otherwise leave a part of the word. -/
theorem internalIds_word {guard : Guard} {stop : Char → Bool} {names : List String} {w : String}
    {s : Char} {rest : Text}
    (hguard : ∀ n c t, stop c = true → guard n (c :: t) = true)
    (hn : ∀ n ∈ names, ∀ c ∈ n.toList, stop c = false) (hs : stop s = true) :
    (w ∈ names → internalIds guard names (w.toList ++ s :: rest) = some (w, s :: rest)) ∧
    (w ∉ names → ∀ n r, internalIds guard names (w.toList ++ s :: rest) = some (n, r) →
      n ∈ names ∧ ∃ c u, r = c :: (u ++ s :: rest) ∧ n.toList ++ c :: u = w.toList) := by
  have htok : ∀ n ∈ names, ∀ r, token guard (w.toList ++ s :: rest) n = some r →
      n.toList <+: w.toList ∧ r.1 = n ∧ w.toList ++ s :: rest = n.toList ++ r.2 := by
    intro n hm r hr
    obtain ⟨tail, ht, rfl⟩ := token_some hr
    exact ⟨prefix_of_word (hn n hm) hs ht, rfl, ht⟩
  constructor
  · intro hw
    apply findSome_descending (pairwise_descending names) (mem_descending.2 hw)
    · unfold token
      have hp : w.toList.isPrefixOf (w.toList ++ s :: rest) = true := by
        rw [List.isPrefixOf_iff_prefix]; exact ⟨_, rfl⟩
      simp [hp, hguard w s rest hs]
    · intro x hx hsome hne
      obtain ⟨r, hr⟩ := Option.isSome_iff_exists.1 hsome
      have hp := (htok x (mem_descending.1 hx) r hr).1
      rw [String.lt_iff]
      exact prefix_lt hp (fun e => hne (String.toList_inj.1 e))
  · intro hw n r hr
    obtain ⟨x, hx, hf⟩ := List.exists_of_findSome?_eq_some hr
    have hxm := mem_descending.1 hx
    obtain ⟨hp, h1, h2⟩ := htok x hxm (n, r) hf
    simp only at h1 h2
    subst h1
    refine ⟨hxm, ?_⟩
    obtain ⟨a, ha⟩ := hp
    cases a with
    | nil =>
      exfalso; apply hw
      rw [List.append_nil] at ha
      rw [← String.toList_inj.1 ha]; exact hxm
    | cons c u =>
      refine ⟨c, u, ?_, ha⟩
      rw [← ha, List.append_assoc] at h2
      have := List.append_cancel_left h2
      rw [← this]; rfl

/-- The characters that end a word: blank, tab, line feed, carriage return. -/
def isBlank (c : Char) : Bool := c == ' ' || c == '\t' || c == '\n' || c == '\r'

/-- The text goes on with a blank, a tab or a line end (line feed, or carriage return and line
feed). -/
def EndOfWord (rest : Text) : Prop :=
  ∃ t, rest = ' ' :: t ∨ rest = '\t' :: t ∨ rest = '\n' :: t ∨ rest = '\r' :: '\n' :: t

theorem wsOrNl_iff (rest : Text) : wsOrNl rest = true ↔ EndOfWord rest := by
  constructor
  · intro h
    unfold wsOrNl at h
    split at h
    · exact ⟨_, Or.inl rfl⟩
    · exact ⟨_, Or.inr (Or.inl rfl)⟩
    · exact ⟨_, Or.inr (Or.inr (Or.inl rfl))⟩
    · exact ⟨_, Or.inr (Or.inr (Or.inr rfl))⟩
    · cases h
  · rintro ⟨t, rfl | rfl | rfl | rfl⟩ <;> rfl

/-- **C40.** In any text that starts with a word and then a blank, a tab or a line end, a reference
resolves to exactly that word when it is a known name, and does not resolve otherwise, whatever
other names are known and however they overlap. -/
theorem C40_reference_is_the_word (guard : Guard)
    (hguard : ∀ n c t, isBlank c = true → guard n (c :: t) = true)
    (names : List String) (hnames : ∀ n ∈ names, ∀ c ∈ n.toList, isBlank c = false)
    (w : String) (hw : ∀ c ∈ w.toList, isBlank c = false)
    (rest : Text) (hend : EndOfWord rest) :
    reference guard wsOrNl names (w.toList ++ rest) = if w ∈ names then some (w, rest) else none := by
  have hrest := (wsOrNl_iff rest).2 hend
  obtain ⟨s, t, rfl, hs⟩ : ∃ s t, rest = s :: t ∧ isBlank s = true := by
    cases rest with
    | nil => simp [wsOrNl] at hrest
    | cons s t =>
      refine ⟨s, t, rfl, ?_⟩
      unfold wsOrNl at hrest
      split at hrest <;> simp_all [isBlank]
  have key := internalIds_word (guard := guard) (stop := isBlank) (names := names) (w := w) (s := s)
    (rest := t) hguard hnames hs
  unfold reference
  by_cases hm : w ∈ names
  · rw [key.1 hm]; simp [hm, hrest]
  · rw [if_neg hm]
    cases hi : internalIds guard names (w.toList ++ s :: t) with
    | none => rfl
    | some p =>
      obtain ⟨n, r⟩ := p
      obtain ⟨-, c, u, rfl, hc⟩ := key.2 hm n r hi
      have hcb : isBlank c = false := hw c (by rw [← hc]; simp)
      simp only
      have : wsOrNl (c :: (u ++ s :: t)) = false := by
        simp [isBlank] at hcb
        unfold wsOrNl
        split <;> simp_all
      simp [this]

/-- **C40 for `name/...` references** (names with a port or mask behind a slash). -/
theorem C40_reference_before_slash (guard : Guard)
    (hguard : ∀ n t, guard n ('/' :: t) = true)
    (names : List String) (hnames : ∀ n ∈ names, '/' ∉ n.toList)
    (w : String) (hw : '/' ∉ w.toList) (rest : Text) :
    reference guard slash names (w.toList ++ '/' :: rest) =
      if w ∈ names then some (w, '/' :: rest) else none := by
  have key := internalIds_word (guard := guard) (stop := fun c => c == '/') (names := names) (w := w)
    (s := '/') (rest := rest)
    (by intro n c t hc; simp only [beq_iff_eq] at hc; subst hc; exact hguard n t)
    (by intro n hn c hc
        simp only [beq_eq_false_iff_ne]
        rintro rfl; exact hnames n hn hc)
    (by simp)
  unfold reference
  by_cases hm : w ∈ names
  · rw [key.1 hm]; simp [hm, slash]
  · rw [if_neg hm]
    cases hi : internalIds guard names (w.toList ++ '/' :: rest) with
    | none => rfl
    | some p =>
      obtain ⟨n, r⟩ := p
      obtain ⟨-, c, u, rfl, hc⟩ := key.2 hm n r hi
      have hcb : c ≠ '/' := by rintro rfl; exact hw (by rw [← hc]; simp)
      simp only
      have : slash (c :: (u ++ '/' :: rest)) = false := by
        unfold slash
        split <;> simp_all
      simp [this]

/-- TatSu's guard as documented: a token of letters and digits is refused in front of a letter or
digit.  It satisfies the hypothesis on guards. -/
def tatsuGuard : Guard := fun n rest =>
  !(n.toList.all Char.isAlphanum && (rest.head?.map Char.isAlphanum).getD false)

theorem tatsuGuard_ok : ∀ n c t, isBlank c = true → tatsuGuard n (c :: t) = true := by
  intro n c t h
  have : c.isAlphanum = false := by
    simp only [isBlank, Bool.or_eq_true, beq_iff_eq] at h
    rcases h with ((rfl | rfl) | rfl) | rfl <;> decide
  simp [tatsuGuard, this]

/-- Overlapping names, the shorter one written: hypotheses are met and the right one is taken. -/
theorem C40_sample :
    reference tatsuGuard wsOrNl ["web", "web-1", "web-10"] ("web-1 any".toList) =
      some ("web-1", " any".toList) ∧
    reference tatsuGuard wsOrNl ["web", "web-1"] ("web-2 any".toList) = none := by
  have hn : ∀ n ∈ ["web", "web-1", "web-10"], ∀ c ∈ n.toList, isBlank c = false := by decide
  have hn' : ∀ n ∈ ["web", "web-1"], ∀ c ∈ n.toList, isBlank c = false := by decide
  constructor
  · have := C40_reference_is_the_word tatsuGuard tatsuGuard_ok ["web", "web-1", "web-10"] hn "web-1"
      (by decide) " any".toList ⟨"any".toList, Or.inl (by decide)⟩
    simpa using this
  · have := C40_reference_is_the_word tatsuGuard tatsuGuard_ok ["web", "web-1"] hn' "web-2"
      (by decide) " any".toList ⟨"any".toList, Or.inl (by decide)⟩
    simpa using this

/-! ## NAT interfaces -/

/-- **C57 (NAT interface names), the part that holds**: the written name is taken when it is known
and the keyword `any` does not match in front of it. -/
theorem C57_nat_interface_partial (guard : Guard) (close : Char)
    (hguard : ∀ n t, guard n (close :: t) = true)
    (names : List String) (hnames : ∀ n ∈ names, close ∉ n.toList)
    (w : String) (hw : close ∉ w.toList) (rest : Text)
    (hany : token guard (w.toList ++ close :: rest) "any" = none) :
    natInterface guard close names (w.toList ++ close :: rest) =
      if w ∈ names then some (w, rest) else none := by
  have key := internalIds_word (guard := guard) (stop := fun c => c == close) (names := names) (w := w)
    (s := close) (rest := rest)
    (by intro n c t hc; simp only [beq_iff_eq] at hc; subst hc; exact hguard n t)
    (by intro n hn c hc
        simp only [beq_eq_false_iff_ne]
        rintro rfl; exact hnames n hn hc)
    (by simp)
  unfold natInterface
  rw [hany]
  by_cases hm : w ∈ names
  · simp only [key.1 hm]; simp [hm]
  · rw [if_neg hm]
    cases hi : internalIds guard names (w.toList ++ close :: rest) with
    | none => rfl
    | some p =>
      obtain ⟨n, r⟩ := p
      obtain ⟨-, c, u, rfl, hc⟩ := key.2 hm n r hi
      have hcb : c ≠ close := by rintro rfl; exact hw (by rw [← hc]; simp)
      simp [hcb]

/-- **C57 is violated** by a known interface whose name is `any` followed by a hyphen: the keyword
is taken and the command does not parse. -/
theorem C57_violated (rest : Text) :
    ∃ names : List String, "any-dmz" ∈ names ∧
      natInterface tatsuGuard ',' names ("any-dmz".toList ++ ',' :: rest) = none := by
  refine ⟨["any-dmz"], by simp, ?_⟩
  unfold natInterface
  have : token tatsuGuard ("any-dmz".toList ++ ',' :: rest) "any" =
      some ("any", "-dmz".toList ++ ',' :: rest) := by
    simp [token, tatsuGuard]
  rw [this]
  simp

end Acltk.Lookup
