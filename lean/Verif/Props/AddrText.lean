import Verif.Lemmas.AddrText
import Verif.Props.NetText
/-!
# C64: which texts are addresses
-/
namespace Acltk

theorem splitOn_append (c : Char) (a b : List Char) :
    splitOn c (a ++ c :: b) = splitOn c a ++ splitOn c b := by
  induction a with
  | nil => simp [splitOn]
  | cons x t ih =>
    by_cases h : x = c
    · subst h; simp [splitOn, ih]
    · simp only [List.cons_append, splitOn, h, if_false, ih]
      cases hs : splitOn c t with
      | nil => exact absurd hs (splitOn_ne_nil c t)
      | cons p ps => simp

theorem joinWith_cons_ne (c : Char) (p : List Char) {q : List (List Char)} (h : q ≠ []) :
    joinWith c (p :: q) = p ++ c :: joinWith c q := by
  cases q with
  | nil => exact absurd rfl h
  | cons a t => rfl

theorem joinWith_append (c : Char) {p q : List (List Char)} (hp : p ≠ []) (hq : q ≠ []) :
    joinWith c (p ++ q) = joinWith c p ++ c :: joinWith c q := by
  induction p with
  | nil => exact absurd rfl hp
  | cons a t ih =>
    by_cases ht : t = []
    · subst ht; rw [List.singleton_append, joinWith_cons_ne c a hq]; rfl
    · rw [List.cons_append, joinWith_cons_ne c a (by simp [ht]), ih ht, joinWith_cons_ne c a ht]
      simp

theorem joinWith_pad (l : List (List Char)) : joinWith ':' (pad l) = joinWith ':' l := by
  unfold pad; split
  · rename_i h; subst h; rfl
  · rfl

theorem pad_ne_nil (l : List (List Char)) : pad l ≠ [] := by
  have := pad_length l; intro e; rw [e] at this; simp at this

theorem joinWith_gap (hp : List (List Char)) {x : List (List Char)} (hx : x ≠ []) :
    joinWith ':' (pad hp ++ [] :: x) = joinWith ':' hp ++ ':' :: ':' :: joinWith ':' x := by
  rw [joinWith_append ':' (pad_ne_nil hp) (by simp), joinWith_pad, joinWith_cons_ne ':' [] hx]
  rfl

theorem colon_not_hex : isHexDigit ':' = false := by decide
theorem dot_not_hex : isHexDigit '.' = false := by decide

theorem dotted_no {q : Nat} (hq : q < 2 ^ 32) : ':' ∉ Dotted q ∧ '.' ∈ Dotted q := by
  constructor
  · rw [dotted_eq hq]
    intro h
    unfold fmtV4 at h
    rcases mem_joinWith h with h | ⟨p, hp, h⟩
    · revert h; decide
    · have hd : ∀ n, ':' ∉ decText n := by
        intro n hm
        have := isDigits_decText n
        simp only [isDigits, Bool.and_eq_true, List.all_eq_true] at this
        have := this.2 _ hm
        revert this; decide
      simp only [List.mem_cons, List.not_mem_nil, or_false] at hp
      rcases hp with rfl | rfl | rfl | rfl <;> exact hd _ h
  · simp [Dotted]

theorem groups_split {quad : Bool} {s : List Char} {ns : List Nat} (h : Groups quad s ns) :
    GroupList (splitOn ':' s) ns ∨
    (quad = true ∧ ∃ ps ms q, q < 2 ^ 32 ∧ splitOn ':' s = ps ++ [Dotted q] ∧ GroupList ps ms ∧
      ns = ms ++ [q / 65536, q % 65536]) := by
  induction h with
  | one s n h =>
    rw [splitOn_of_not_mem (h.no colon_not_hex)]
    exact Or.inl (.cons h .nil)
  | quad q hq hlt =>
    refine Or.inr ⟨hq, [], [], q, hlt, ?_, .nil, rfl⟩
    rw [splitOn_of_not_mem (dotted_no hlt).1]; rfl
  | cons s n t ns h _ ih =>
    rw [splitOn_append_sep (h.no colon_not_hex)]
    rcases ih with ih | ⟨hq, ps, ms, q, hlt, h1, h2, h3⟩
    · exact Or.inl (.cons h ih)
    · exact Or.inr ⟨hq, s :: ps, n :: ms, q, hlt, by rw [h1]; rfl, .cons h h2, by rw [h3]; rfl⟩

theorem groups_of_list {quad : Bool} {ps ns} (h : GroupList ps ns) (hn : ps ≠ []) :
    Groups quad (joinWith ':' ps) ns := by
  induction h with
  | nil => exact absurd rfl hn
  | cons h1 h2 ih =>
    rename_i s n t ns
    by_cases ht : t = []
    · subst ht; cases h2; exact .one _ _ h1
    · rw [joinWith_cons_ne ':' _ ht]; exact .cons _ _ _ _ h1 (ih ht)

theorem groups_of_quad {ps ms} {q : Nat} (h : GroupList ps ms) (hq : q < 2 ^ 32) :
    Groups true (joinWith ':' (ps ++ [Dotted q])) (ms ++ [q / 65536, q % 65536]) := by
  induction h with
  | nil => exact .quad q rfl hq
  | cons h1 h2 ih =>
    rw [List.cons_append, joinWith_cons_ne ':' _ (by simp)]
    exact .cons _ _ _ _ h1 ih

theorem group16_hexText {n : Nat} (h : n < 2 ^ 16) : Group16 (hexText n) n :=
  (parseHextet_iff _ _).1 (parseHextet_hexText h)

/-- The two groups of the dotted quad, as the parser rewrites them. -/
def quadParts (q : Nat) : List (List Char) := [hexText (q / 2 ^ 16 % 2 ^ 16), hexText (q % 2 ^ 16)]

theorem quadParts_groups {q : Nat} (h : q < 2 ^ 32) : GroupList (quadParts q) [q / 65536, q % 65536] := by
  have e : q / 2 ^ 16 % 2 ^ 16 = q / 65536 := by omega
  have e2 : q % 2 ^ 16 = q % 65536 := by omega
  unfold quadParts
  rw [e, e2]
  exact .cons (group16_hexText (by omega)) (.cons (group16_hexText (by omega)) .nil)

theorem GroupList.unique {ps ns ms} (h : GroupList ps ns) (h' : GroupList ps ms) : ns = ms := by
  induction h generalizing ms with
  | nil => cases h'; rfl
  | cons h1 _ ih =>
    cases h' with
    | cons h3 h4 => rw [h1.unique h3, ih h4]

theorem parseV4_dotted_iff (s : List Char) (q : Nat) : parseV4 s = some q ↔ q < 2 ^ 32 ∧ s = Dotted q := by
  constructor
  · intro h
    obtain ⟨h1, h2⟩ := parseV4_some h
    exact ⟨h1, by rw [dotted_eq h1, h2]⟩
  · rintro ⟨h1, rfl⟩
    rw [dotted_eq h1]; exact parseV4_fmtV4 h1

theorem v6Text_of_parse {s : List Char} {n : Nat} (h : parseV6 s = some n) : V6Text s n := by
  unfold parseV6 at h
  simp only at h
  split at h; · cases h
  have hjoin := joinWith_splitOn ':' s
  generalize splitOn ':' s = parts at h hjoin
  rename_i hlen
  have hpn : parts ≠ [] := by
    intro e; subst e
    simp [parseV6Parts, emptyInner] at h
  split at h
  · split at h; · cases h
    rename_i hdot ip hip
    obtain ⟨hq, hd⟩ := (parseV4_dotted_iff _ _).1 hip
    have hparts : parts = parts.dropLast ++ [Dotted ip] := by
      rw [← hd, List.getLast?_eq_some_getLast hpn, Option.getD_some, List.dropLast_concat_getLast]
    generalize parts.dropLast = ini at hparts h
    have hr := (parseV6Parts_iff _ _).1 h
    change PartsRead (ini ++ quadParts ip) n at hr
    have hqp := quadParts_groups hq
    cases hr with
    | full ns h1 h2 h3 =>
      obtain ⟨a, b, rfl, ha, hb⟩ := h1.split
      rw [hb.unique hqp] at h2 h3
      refine .full _ ?_ h2 h3
      rw [← hjoin, hparts]
      exact groups_of_quad ha hq
    | short hp lp hs ls h1 h2 h3 h4 h5 =>
      obtain ⟨A, B, hAB⟩ : ∃ A B, quadParts ip = [A, B] := ⟨_, _, rfl⟩
      have hne := hqp.ne_nil
      rw [hAB] at h1 hqp hne
      have hAn : A ≠ [] := hne A (by simp)
      have hBn : B ≠ [] := hne B (by simp)
      -- the end is part of the low groups
      have hlast := congrArg List.getLast? h1
      have hlp : lp ≠ [] := by
        rintro rfl
        rw [show ini ++ [A, B] = (ini ++ [A]) ++ [B] by simp,
          show pad hp ++ [] :: pad [] = (pad hp ++ [[]]) ++ [[]] by simp [pad]] at hlast
        simp at hlast
        exact hBn hlast
      have hpad : pad lp = lp := by simp [pad, hlp]
      rw [hpad] at h1
      rcases eq_nil_or_snoc lp with rfl | ⟨lp1, B', rfl⟩
      · exact absurd rfl hlp
      rw [show ini ++ [A, B] = (ini ++ [A]) ++ [B] by simp,
        show pad hp ++ [] :: (lp1 ++ [B']) = (pad hp ++ [] :: lp1) ++ [B'] by simp] at h1
      obtain ⟨h1, hB⟩ := List.append_inj' h1 rfl
      rcases eq_nil_or_snoc lp1 with rfl | ⟨lp2, A', rfl⟩
      · rw [show pad hp ++ [[]] = pad hp ++ [[]] from rfl] at h1
        obtain ⟨_, hA⟩ := List.append_inj' h1 rfl
        simp at hA
        exact absurd hA hAn
      rw [show pad hp ++ [] :: (lp2 ++ [A']) = (pad hp ++ [] :: lp2) ++ [A'] by simp] at h1
      obtain ⟨hini, hA⟩ := List.append_inj' h1 rfl
      simp only [List.cons.injEq, and_true] at hA hB
      subst hA; subst hB
      rw [show lp2 ++ [A] ++ [B] = lp2 ++ [A, B] by simp] at h3
      obtain ⟨a, b, rfl, ha, hb⟩ := h3.split
      rw [hb.unique hqp] at h4 h5
      refine .short (joinWith ':' hp) (joinWith ':' (lp2 ++ [Dotted ip])) hs _ ?_ ?_
        (Or.inr (groups_of_quad ha hq)) h4 h5
      · rw [← hjoin, hparts, hini, ← joinWith_gap hp (by simp)]
        simp
      · by_cases e : hp = []
        · subst e; cases h2; exact Or.inl ⟨rfl, rfl⟩
        · exact Or.inr (groups_of_list h2 e)
  · cases (parseV6Parts_iff _ _).1 h with
    | full ns h1 h2 h3 =>
      refine .full ns ?_ h2 h3
      rw [← hjoin]
      exact groups_of_list h1 hpn
    | short hp lp hs ls h1 h2 h3 h4 h5 =>
      refine .short (joinWith ':' hp) (joinWith ':' lp) hs ls ?_ ?_ ?_ h4 h5
      · rw [← hjoin, h1, joinWith_gap hp (pad_ne_nil lp), joinWith_pad]
      · by_cases e : hp = []
        · subst e; cases h2; exact Or.inl ⟨rfl, rfl⟩
        · exact Or.inr (groups_of_list h2 e)
      · by_cases e : lp = []
        · subst e; cases h3; exact Or.inl ⟨rfl, rfl⟩
        · exact Or.inr (groups_of_list h3 e)

theorem parseV6_of_list {s : List Char} {n : Nat} (hr : PartsRead (splitOn ':' s) n)
    (hl : 3 ≤ (splitOn ':' s).length) (hd : '.' ∉ (splitOn ':' s).getLast?.getD []) :
    parseV6 s = some n := by
  unfold parseV6
  simp only
  rw [if_neg (by omega), if_neg hd]
  exact (parseV6Parts_iff _ _).2 hr

theorem parseV6_of_quad {s : List Char} {n q : Nat} {ini : List (List Char)}
    (hs : splitOn ':' s = ini ++ [Dotted q]) (hq : q < 2 ^ 32)
    (hr : PartsRead (ini ++ quadParts q) n) (hl : 2 ≤ ini.length) :
    parseV6 s = some n := by
  unfold parseV6
  simp only
  rw [hs]
  simp only [List.getLast?_append, List.getLast?_singleton, Option.some_or,
    Option.getD_some, List.length_append, List.length_singleton,
    List.dropLast_concat]
  rw [if_neg (by omega), if_pos (dotted_no hq).2, (parseV4_dotted_iff _ _).2 ⟨hq, rfl⟩]
  exact (parseV6Parts_iff _ _).2 hr

theorem parse_of_v6Text {s : List Char} {n : Nat} (h : V6Text s n) : parseV6 s = some n := by
  cases h with
  | full ns h1 h2 h3 =>
    rcases groups_split h1 with h | ⟨-, ps, ms, q, hq, hs, hg, rfl⟩
    · have hl := h.length
      apply parseV6_of_list (.full ns h h2 h3) (by omega)
      have hpn : splitOn ':' s ≠ [] := splitOn_ne_nil _ _
      rw [List.getLast?_eq_some_getLast hpn]
      exact h.no dot_not_hex _ (List.getLast_mem hpn)
    · have hl := hg.length
      simp only [List.length_append, List.length_cons, List.length_nil] at h2
      exact parseV6_of_quad hs hq (.full _ (hg.append (quadParts_groups hq)) (by simp; omega) h3)
        (by omega)
  | short a b hs ls h1 h2 h3 h4 h5 =>
    have hsplit : splitOn ':' s = splitOn ':' a ++ [] :: splitOn ':' b := by
      rw [h1, splitOn_append]
      simp [splitOn]
    obtain ⟨hp, ha, hga⟩ : ∃ hp, splitOn ':' a = pad hp ∧ GroupList hp hs := by
      rcases h2 with ⟨rfl, rfl⟩ | h2
      · exact ⟨[], by simp [splitOn, pad], .nil⟩
      · rcases groups_split h2 with h | ⟨hq, _⟩
        · exact ⟨splitOn ':' a, by simp [pad, splitOn_ne_nil], h⟩
        · cases hq
    rw [ha] at hsplit
    have l1 := pad_length hp
    rcases h3 with ⟨rfl, rfl⟩ | h3
    · apply parseV6_of_list
      · rw [hsplit]
        exact .short hp [] hs [] (by simp [splitOn, pad]) hga .nil h4 h5
      · rw [hsplit]; simp [splitOn]; omega
      · rw [hsplit]; simp [splitOn]
    · rcases groups_split h3 with h | ⟨-, ps, ms, q, hq, hsb, hg, rfl⟩
      · have hn : splitOn ':' b ≠ [] := splitOn_ne_nil _ _
        apply parseV6_of_list
        · rw [hsplit]
          exact .short hp (splitOn ':' b) hs ls (by simp [pad, hn]) hga h h4 h5
        · rw [hsplit]
          have := List.length_pos_iff.2 hn
          simp; omega
        · rw [hsplit, show pad hp ++ [] :: splitOn ':' b = (pad hp ++ [[]]) ++ splitOn ':' b by simp,
            getLast?_append_ne _ hn, List.getLast?_eq_some_getLast hn]
          exact h.no dot_not_hex _ (List.getLast_mem hn)
      · apply parseV6_of_quad (q := q) (ini := pad hp ++ [] :: ps)
        · rw [hsplit, hsb]; simp
        · exact hq
        · refine .short hp (ps ++ quadParts q) hs _ ?_ hga (hg.append (quadParts_groups hq)) h4 h5
          simp [pad, quadParts]
        · simp; omega

theorem groups_chars {quad : Bool} {s : List Char} {ns : List Nat} (h : Groups quad s ns) :
    '/' ∉ s ∧ (3 ≤ ns.length → ':' ∈ s) := by
  induction h with
  | one s n h => exact ⟨h.no (by decide), by simp⟩
  | quad q hq hlt =>
    refine ⟨?_, by simp⟩
    rw [dotted_eq hlt]
    exact fmtV4_no _ rfl (by decide)
  | cons s n t ns h _ ih =>
    refine ⟨?_, by simp⟩
    intro hm
    rcases List.mem_append.1 hm with hm | hm
    · exact h.no (by decide) hm
    · rcases List.mem_cons.1 hm with hm | hm
      · revert hm; decide
      · exact ih.1 hm

theorem v6Text_chars {s : List Char} {n : Nat} (h : V6Text s n) : ':' ∈ s ∧ '/' ∉ s := by
  cases h with
  | full ns h1 h2 h3 => exact ⟨(groups_chars h1).2 (by omega), (groups_chars h1).1⟩
  | short a b hs ls h1 h2 h3 h4 h5 =>
    subst h1
    refine ⟨by simp, ?_⟩
    have ha : '/' ∉ a := by
      rcases h2 with ⟨rfl, _⟩ | h2
      · simp
      · exact (groups_chars h2).1
    have hb : '/' ∉ b := by
      rcases h3 with ⟨rfl, _⟩ | h3
      · simp
      · exact (groups_chars h3).1
    simp [ha, hb]

/-- **C64.** A text is accepted as an address exactly if it is a dotted quad of four decimal numbers
up to 255 without leading zeros, or an IPv6 address in the notation of RFC 4291, and then it is the
address written; every other text raises ValueError. -/
theorem C64_address_text (s : List Char) :
    (∀ q, ipAddress s = .ok ⟨.v4, q⟩ ↔ q < 2 ^ 32 ∧ s = Dotted q) ∧
    (∀ n, ipAddress s = .ok ⟨.v6, n⟩ ↔ V6Text s n) ∧
    ((∀ q, ¬ (q < 2 ^ 32 ∧ s = Dotted q)) → (∀ n, ¬ V6Text s n) → ipAddress s = .error .value) := by
  have h6 : ∀ n, ipAddress s = .ok ⟨.v6, n⟩ ↔ V6Text s n := by
    intro n
    constructor
    · intro h
      obtain ⟨_, ⟨hv, _⟩ | ⟨_, hp⟩⟩ := ipAddress_ok h
      · cases hv
      · exact v6Text_of_parse hp.2
    · intro h
      have hp := parse_of_v6Text h
      have hcs := v6Text_chars h
      have h4 : parseV4 s = none := by
        cases e : parseV4 s with
        | none => rfl
        | some q =>
          obtain ⟨h1, rfl⟩ := (parseV4_dotted_iff _ _).1 e
          exact absurd hcs.1 (dotted_no h1).1
      unfold ipAddress
      rw [if_neg hcs.2, h4, hp]
  refine ⟨C19_v4_text s, h6, ?_⟩
  intro h1 h2
  cases h : ipAddress s with
  | error e =>
    unfold ipAddress at h
    split at h; · exact h.symm
    split at h; · cases h
    split at h
    · cases h
    · exact h.symm
  | ok x =>
    obtain ⟨v, n⟩ := x
    cases v with
    | v4 => exact absurd ((C19_v4_text s n).1 h) (h1 n)
    | v6 => exact absurd ((h6 n).1 h) (h2 n)

/-- The notation is unambiguous. -/
theorem C64_unique (s : List Char) (m n : Nat) (h1 : V6Text s m) (h2 : V6Text s n) : m = n := by
  have a := parse_of_v6Text h1
  have b := parse_of_v6Text h2
  rw [a] at b; simpa using b

/-- Concrete texts: `2001:DB8::1` is an address, `::` for no group at all is none. -/
theorem C64_sample : V6Text "2001:DB8::1".toList 0x20010db8000000000000000000000001 ∧
    (∀ n, ¬ V6Text "1:2:3:4::5:6:7:8".toList n) ∧ V6Text "::ffff:1.2.3.4".toList 0xffff01020304 ∧
    ipAddress "010.0.0.1".toList = .error .value := by
  refine ⟨v6Text_of_parse (by decide +kernel), ?_, v6Text_of_parse (by decide +kernel),
    by decide +kernel⟩
  intro n h
  have h1 := parse_of_v6Text h
  have h2 : parseV6 "1:2:3:4::5:6:7:8".toList = none := by decide +kernel
  rw [h1] at h2; cases h2

end Acltk
