import Verif.Lemmas.PegOctet
import Verif.Model.AclText
/-!
# The address patterns on address texts
-/
namespace Acltk.Peg
open Acltk Acltk.Lookup

theorem octet_dot {o : Nat} (ho : o < 256) (t : Text) :
    (Re.seq octetRe (.chr '.')).run (decText o ++ '.' :: t) = [t] := by
  obtain ⟨L, h, hL⟩ := octet_run o ho '.' t (by decide)
  have : L.flatMap (Re.chr '.').run = [] := by
    rw [List.flatMap_eq_nil_iff]
    intro x hx
    obtain ⟨d, u, rfl, hd⟩ := hL x hx
    have : (d == '.') = false := by rw [beq_eq_false_iff_ne]; rintro rfl; revert hd; decide
    simp [Re.chr, Re.run, this]
  simp only [Re.run, h, List.flatMap_cons, this]
  simp [Re.chr, Re.run]

theorem ip4Re_run {n : Nat} (s : Char) (t : Text) (hs : s.isDigit = false) :
    ∃ L, ip4Re.run (fmtV4 n ++ s :: t) = (s :: t) :: L := by
  have e : fmtV4 n ++ s :: t = decText (n / 2 ^ 24 % 256) ++ '.' :: (decText (n / 2 ^ 16 % 256) ++ '.' ::
      (decText (n / 2 ^ 8 % 256) ++ '.' :: (decText (n % 256) ++ s :: t))) := by
    simp [fmtV4, joinWith]
  have lt : ∀ m, m % 256 < 256 := fun m => Nat.mod_lt _ (by decide)
  obtain ⟨L, h, -⟩ := octet_run (n % 256) (lt _) s t hs
  refine ⟨L, ?_⟩
  rw [e]
  show (((Re.seq octetRe (.chr '.')).run _).flatMap _) = _
  rw [octet_dot (lt _)]
  show (((Re.seq octetRe (.chr '.')).run _).flatMap _) ++ [] = _
  rw [octet_dot (lt _)]
  show (((Re.seq octetRe (.chr '.')).run _).flatMap _) ++ [] ++ [] = _
  rw [octet_dot (lt _)]
  show octetRe.run _ ++ [] ++ [] ++ [] = _
  rw [h]; simp

/-- The octet pattern only takes digits. -/
theorem octet_takes {t x : Text} (h : x ∈ octetRe.run t) : ∃ ds, ds ≠ [] ∧ (∀ c ∈ ds, c.isDigit = true) ∧ t = ds ++ x := by
  have hr : ∀ {a b c : Char}, '0' ≤ a → b ≤ '9' → (decide (a ≤ c) && decide (c ≤ b)) = true → c.isDigit = true := by
    intro a b c ha hb h
    cases hc : c.isDigit with
    | true => rfl
    | false => rw [rng_not_digit hc ha hb] at h; cases h
  have hcls : ∀ {p : Char → Bool} {t x : Text}, x ∈ (Re.cls p).run t → ∃ c, p c = true ∧ t = c :: x := by
    intro p t x h
    cases t with
    | nil => simp [Re.run] at h
    | cons c t =>
      simp only [Re.run] at h
      split at h
      · simp at h; subst h; exact ⟨c, by assumption, rfl⟩
      · simp at h
  have hseq : ∀ {a b : Re} {t x : Text}, x ∈ (Re.seq a b).run t → ∃ y ∈ a.run t, x ∈ b.run y := by
    intro a b t x h; simpa [Re.run] using h
  have halt : ∀ {a b : Re} {t x : Text}, x ∈ (Re.alt a b).run t → x ∈ a.run t ∨ x ∈ b.run t := by
    intro a b t x h; simpa [Re.run] using h
  have dchr : ∀ {a c : Char}, a.isDigit = true → (c == a) = true → c.isDigit = true := by
    intro a c h1 h2; rw [beq_iff_eq] at h2; subst h2; exact h1
  rcases halt h with h | h
  · obtain ⟨y, h1, h⟩ := hseq h
    obtain ⟨z, h2, h3⟩ := hseq h
    obtain ⟨a, ha, rfl⟩ := hcls h1
    obtain ⟨b, hb, rfl⟩ := hcls h2
    obtain ⟨c, hc, rfl⟩ := hcls h3
    refine ⟨[a, b, c], by simp, ?_, rfl⟩
    intro d hd
    simp only [List.mem_cons, List.not_mem_nil, or_false] at hd
    rcases hd with rfl | rfl | rfl
    · exact dchr (by decide) ha
    · exact dchr (by decide) hb
    · exact hr (by decide) (by decide) hc
  · obtain ⟨y, h1, h2⟩ := hseq h
    obtain ⟨c, hc, rfl⟩ := hcls h2
    have hc' := hr (by decide) (by decide) hc
    have : ∃ ds, (∀ c ∈ ds, c.isDigit = true) ∧ t = ds ++ c :: x := by
      rcases halt h1 with h1 | h1
      · rcases halt h1 with h1 | h1
        · obtain ⟨z, h2, h3⟩ := hseq h1
          obtain ⟨a, ha, rfl⟩ := hcls h2
          obtain ⟨b, hb, rfl⟩ := hcls h3
          refine ⟨[a, b], ?_, rfl⟩
          intro d hd
          simp only [List.mem_cons, List.not_mem_nil, or_false] at hd
          rcases hd with rfl | rfl
          · exact dchr (by decide) ha
          · exact hr (by decide) (by decide) hb
        · obtain ⟨z, h2, h3⟩ := hseq h1
          obtain ⟨b, hb, rfl⟩ := hcls h3
          have hb' := hr (by decide) (by decide) hb
          rcases halt h2 with h2 | h2
          · obtain ⟨a, ha, rfl⟩ := hcls h2
            refine ⟨[a, b], ?_, rfl⟩
            intro d hd
            simp only [List.mem_cons, List.not_mem_nil, or_false] at hd
            rcases hd with rfl | rfl
            · exact dchr (by decide) ha
            · exact hb'
          · simp only [Re.run, List.mem_singleton] at h2
            subst h2
            exact ⟨[b], by simpa using hb', rfl⟩
      · simp only [Re.run, List.mem_singleton] at h1
        subst h1
        exact ⟨[], by simp, rfl⟩
    obtain ⟨ds, h1', rfl⟩ := this
    refine ⟨ds ++ [c], by simp, ?_, by simp⟩
    intro d hd
    rcases List.mem_append.1 hd with hd | hd
    · exact h1' d hd
    · simp at hd; subst hd; exact hc'

/-- The IPv4 pattern fails where the digits at the beginning are followed by something else than a
digit or a dot (or there are none). -/
theorem ip4Re_fail {ds t : Text} {s : Char} (hd : ∀ c ∈ ds, c.isDigit = true) (hs : s.isDigit = false)
    (hdot : ds = [] ∨ s ≠ '.') : ip4Re.run (ds ++ s :: t) = [] := by
  show (((Re.seq octetRe (.chr '.')).run _).flatMap _) = _
  have : (Re.seq octetRe (.chr '.')).run (ds ++ s :: t) = [] := by
    simp only [Re.run]
    rw [List.flatMap_eq_nil_iff]
    intro x hx
    obtain ⟨es, hne, he, h⟩ := octet_takes hx
    have hp : es <+: ds := prefix_of_word (stop := fun c => !c.isDigit) (w := ds) (by simpa using he) (by simp [hs]) h
    obtain ⟨fs, hf⟩ := hp
    have hx' : x = fs ++ s :: t := by
      rw [← hf, List.append_assoc] at h; exact (List.append_cancel_left h).symm
    subst hx'
    have hne' : ds ≠ [] := by rw [← hf]; simp [hne]
    have hdot' : s ≠ '.' := hdot.resolve_left hne'
    cases fs with
    | nil => simp [Re.chr, Re.run, hdot']
    | cons d fs =>
      have : d.isDigit = true := hd d (by rw [← hf]; simp)
      have : (d == '.') = false := by rw [beq_eq_false_iff_ne]; rintro rfl; revert this; decide
      simp [Re.chr, Re.run, this]
  rw [this]; rfl

theorem ip6Re_run {h r t : Text} (hh : ∀ c ∈ h, isHex c = true) (hr : r ≠ [])
    (hrc : ∀ c ∈ r, (isHex c || c == '.' || c == ':') = true)
    (ht : ∀ c ∈ t.head?, (isHex c || c == '.' || c == ':') = false) :
    ∃ L, ip6Re.run (h ++ ':' :: (r ++ t)) = t :: L := by
  obtain ⟨L, hL⟩ := starRests_head (q := isHex) (w := h) (t := ':' :: (r ++ t)) hh (by
    intro c hc; simp at hc; subst hc; decide)
  obtain ⟨c, r', rfl⟩ : ∃ c r', r = c :: r' := by
    cases r with
    | nil => exact absurd rfl hr
    | cons c r' => exact ⟨c, r', rfl⟩
  obtain ⟨L2, h2⟩ := run_cls_star (p := fun c => isHex c || c == '.' || c == ':') (q := fun c => isHex c || c == '.' || c == ':')
    (c := c) (w := r') (t := t) (hrc c (by simp)) (fun d hd => hrc d (by simp [hd])) ht
  refine ⟨L2 ++ L.flatMap (Re.run (.seq (.chr ':') (.plus (fun c => isHex c || c == '.' || c == ':')))), ?_⟩
  simp only [ip6Re, Re.run, hL, List.flatMap_cons]
  have : (Re.chr ':').run (':' :: (c :: r' ++ t)) = [c :: r' ++ t] := by simp [Re.chr, Re.run]
  rw [this]
  simp only [List.flatMap_cons, List.flatMap_nil, List.append_nil]
  have h2' : (Re.plus fun c => isHex c || c == '.' || c == ':').run (c :: r' ++ t) = t :: L2 := h2
  rw [h2']; rfl

theorem isHex_eq (c : Char) : isHex c = isHexDigit c := rfl

end Acltk.Peg

namespace Acltk.AclText
open Acltk Acltk.Lookup Acltk.Peg

theorem ip4_dotted {n : Nat} (hn : n < 2 ^ 32) {s : Char} {t : Text} (hs : s.isDigit = false) :
    ip4 (Dotted n ++ s :: t) = .ok ⟨.v4, n⟩ (s :: t) := by
  unfold ip4
  obtain ⟨L, h⟩ := ip4Re_run (n := n) s t hs
  rw [← dotted_eq hn] at h
  rw [bind_ok (pat_of_run h)]
  exact act_ok ((C64_address_text (Dotted n)).1 n |>.2 ⟨hn, rfl⟩) _

/-- The groups of an address text are hexadecimal digits, colons and dots. -/
theorem groups_chars {q : Bool} {s : List Char} {ns : List Nat} (h : Groups q s ns) :
    s ≠ [] ∧ ∀ c ∈ s, (isHex c || c == '.' || c == ':') = true := by
  induction h with
  | one s n h => exact ⟨h.ne_nil, fun c hc => by rw [isHex_eq, h.hex c hc]; rfl⟩
  | quad k _ hk =>
    have := dotted_eq hk
    constructor
    · intro e
      have := (dotted_no hk).2
      rw [e] at this; simp at this
    · intro c hc
      rw [this] at hc
      rcases fmtV4_chars hc with h | rfl
      · simp [isHex, h]
      · decide
  | cons s n t ns h _ ih =>
    refine ⟨by simp, ?_⟩
    intro c hc
    rcases List.mem_append.1 hc with hc | hc
    · rw [isHex_eq, h.hex c hc]; rfl
    · rcases List.mem_cons.1 hc with rfl | hc
      · decide
      · exact ih.2 c hc

/-- An IPv6 text: hexadecimal digits, a colon, and more. -/
theorem v6Text_shape {s : List Char} {n : Nat} (h : V6Text s n) :
    ∃ a r, s = a ++ ':' :: r ∧ (∀ c ∈ a, isHex c = true) ∧ r ≠ [] ∧
      ∀ c ∈ r, (isHex c || c == '.' || c == ':') = true := by
  have key : ∀ {q s ns}, Groups q s ns → (q = true → 2 < ns.length) →
      (∀ c ∈ s, isHex c = true) ∨ ∃ a r, s = a ++ ':' :: r ∧ (∀ c ∈ a, isHex c = true) ∧ r ≠ [] ∧
      ∀ c ∈ r, (isHex c || c == '.' || c == ':') = true := by
    intro q s ns h hq
    cases h with
    | one s n h => exact Or.inl (fun c hc => h.hex c hc)
    | quad k hk _ => have := hq hk; simp at this
    | cons s n t ns h ht => exact Or.inr ⟨s, t, rfl, fun c hc => h.hex c hc, (groups_chars ht).1, (groups_chars ht).2⟩
  cases h with
  | full ns h hl =>
    cases h with
    | one s n h => simp at hl
    | quad k hk _ => simp at hl
    | cons s n t ns h ht => exact ⟨s, t, rfl, fun c hc => h.hex c hc, (groups_chars ht).1, (groups_chars ht).2⟩
  | short a b hs ls he ha hb =>
    have hb' : ∀ c ∈ ':' :: b, (isHex c || c == '.' || c == ':') = true := by
      intro c hc
      rcases List.mem_cons.1 hc with rfl | hc
      · decide
      · rcases hb with ⟨rfl, -⟩ | hb
        · simp at hc
        · exact (groups_chars hb).2 c hc
    rcases ha with ⟨rfl, -⟩ | ha
    · exact ⟨[], ':' :: b, he, by simp, by simp, hb'⟩
    · rcases key ha (by simp) with h | ⟨a', r, rfl, h1, h2, h3⟩
      · exact ⟨a, ':' :: b, he, h, by simp, hb'⟩
      · refine ⟨a', r ++ ':' :: ':' :: b, by rw [he]; simp, h1, by simp, ?_⟩
        intro c hc
        rcases List.mem_append.1 hc with hc | hc
        · exact h3 c hc
        · rcases List.mem_cons.1 hc with rfl | hc
          · decide
          · exact hb' c hc

theorem ip6_text {s : List Char} {n : Nat} (h : V6Text s n) {t : Text}
    (ht : ∀ c ∈ t.head?, (isHex c || c == '.' || c == ':') = false) : ip6 (s ++ t) = .ok ⟨.v6, n⟩ t := by
  obtain ⟨a, r, rfl, h1, h2, h3⟩ := v6Text_shape h
  unfold ip6
  obtain ⟨L, hL⟩ := ip6Re_run h1 h2 h3 ht
  rw [bind_ok (pat_of_run (w := a ++ ':' :: r) (L := L) (by simpa using hL))]
  exact act_ok ((C64_address_text _).2.1 n |>.2 h) _

theorem ip4_v6 {s : List Char} {n : Nat} (h : V6Text s n) (t : Text) : ip4 (s ++ t) = .fail := by
  obtain ⟨a, r, rfl, h1, h2, h3⟩ := v6Text_shape h
  unfold ip4
  apply bind_fail
  apply pat_fail
  -- the digits at the beginning are followed by a hexadecimal letter or the colon
  have : ∃ ds s u, a ++ ':' :: (r ++ t) = ds ++ s :: u ∧ (∀ c ∈ ds, c.isDigit = true) ∧ s.isDigit = false ∧ s ≠ '.' := by
    clear h h2 h3
    induction a with
    | nil => exact ⟨[], ':', r ++ t, rfl, by simp, by decide, by decide⟩
    | cons c a ih =>
      by_cases hc : c.isDigit = true
      · obtain ⟨ds, s, u, h, h1', h2, h3⟩ := ih (fun d hd => h1 d (by simp [hd]))
        refine ⟨c :: ds, s, u, by simp [h], ?_, h2, h3⟩
        intro d hd
        rcases List.mem_cons.1 hd with rfl | hd
        · exact hc
        · exact h1' d hd
      · refine ⟨[], c, a ++ ':' :: (r ++ t), rfl, by simp, by simpa using hc, ?_⟩
        rintro rfl
        have := h1 '.' (by simp)
        revert this; decide
  obtain ⟨ds, s, u, h, h1', h2', h3'⟩ := this
  have e : a ++ ':' :: r ++ t = ds ++ s :: u := by rw [← h]; simp
  rw [e]
  exact ip4Re_fail h1' h2' (Or.inr h3')

theorem ip4_not_digit {t : Text} (h : ∀ c ∈ t.head?, c.isDigit = false) (hne : t ≠ []) : ip4 t = .fail := by
  cases t with
  | nil => exact absurd rfl hne
  | cons s t =>
    unfold ip4
    apply bind_fail
    apply pat_fail
    exact ip4Re_fail (ds := []) (by simp) (h s (by simp)) (Or.inl rfl)

end Acltk.AclText
