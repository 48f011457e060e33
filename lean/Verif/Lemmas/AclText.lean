import Verif.Lemmas.PegAddr
import Verif.Spec.AclTextSpec
import Verif.Props.Port
/-!
# Reading the parts of an access-list line
-/
namespace Acltk.AclText
open Acltk Acltk.Lookup Acltk.Peg

theorem Env.WF.guardOk {e : Env} (h : e.WF) : GuardOk e.guard := ⟨h.passes, h.refuses⟩

theorem blank_iff {c : Char} : isBlank c = false ↔ c ∉ [' ', '\t', '\n', '\r'] := by
  simp [isBlank, and_assoc]

theorem Word.noBlank {w : String} (h : Word w) : ∀ c ∈ w.toList, isBlank c = false :=
  fun c hc => blank_iff.2 (h.2 c hc)

/-- What stands behind a word: the further words, then the end of the line and the rest. -/
def After (rest : Text) : List String → Text → Prop
  | [], t => ∃ b n, Blanks b ∧ (n = ['\n'] ∨ n = ['\r', '\n']) ∧ t = b ++ (n ++ rest)
  | w :: ws, t => ∃ b t', b ≠ [] ∧ Blanks b ∧ t = b ++ (w.toList ++ t') ∧ After rest ws t'

/-- The text begins with these words. -/
def Starts (rest : Text) : List String → Text → Prop
  | [], _ => False
  | w :: ws, t => ∃ t', t = w.toList ++ t' ∧ After rest ws t'

theorem After.endOfWord {rest : Text} {ws : List String} {t : Text} (h : After rest ws t) : EndOfWord t := by
  cases ws with
  | nil =>
    obtain ⟨b, n, hb, hn, rfl⟩ := h
    cases b with
    | nil => rcases hn with rfl | rfl <;> exact ⟨rest, by simp⟩
    | cons c b =>
      rcases hb c (by simp) with rfl | rfl
      · exact ⟨_, Or.inl rfl⟩
      · exact ⟨_, Or.inr (Or.inl rfl)⟩
  | cons w ws =>
    obtain ⟨b, t', hne, hb, rfl, -⟩ := h
    cases b with
    | nil => exact absurd rfl hne
    | cons c b =>
      rcases hb c (by simp) with rfl | rfl
      · exact ⟨_, Or.inl rfl⟩
      · exact ⟨_, Or.inr (Or.inl rfl)⟩

/-- Blanks in front of a word. -/
theorem After.blanks {rest : Text} {w : String} {wl : List String} {t : Text} (h : After rest (w :: wl) t) (hw : Word w) :
    ∃ t', ws t = .ok () t' ∧ Starts rest (w :: wl) t' := by
  obtain ⟨b, t', hne, hb, rfl, ht⟩ := h
  refine ⟨w.toList ++ t', ?_, t', rfl, ht⟩
  apply ws_ok hne hb
  intro c hc
  cases hl : w.toList with
  | nil => exact absurd hl hw.1
  | cons d l =>
    rw [hl] at hc; simp at hc; subst hc
    have := hw.2 d (by rw [hl]; simp)
    simp at this
    exact ⟨this.1, this.2.1⟩

/-- Blanks or none in front of the end of the line. -/
theorem After.wsEnd {rest t : Text} (h : After rest [] t) :
    (ws t = .fail ∧ nl t = .ok () rest) ∨ ∃ t', ws t = .ok () t' ∧ nl t' = .ok () rest ∧ After rest [] t' := by
  obtain ⟨b, n, hb, hn, rfl⟩ := h
  have hnl : nl (n ++ rest) = .ok () rest := by rcases hn with rfl | rfl <;> rfl
  have hh : ∀ c ∈ (n ++ rest).head?, c ≠ ' ' ∧ c ≠ '\t' := by
    rcases hn with rfl | rfl <;> (intro c hc; simp at hc; subst hc; decide)
  by_cases hne : b = []
  · subst hne
    exact Or.inl ⟨ws_fail hh, hnl⟩
  · exact Or.inr ⟨n ++ rest, ws_ok hne hb hh, hnl, [], n, by intro c hc; simp at hc, hn, rfl⟩

/-- After `[WS] NL`. -/
theorem After.finish {rest t : Text} (h : After rest [] t) {β : Type} (k : P β) :
    (opt ws >>= fun _ => nl >>= fun _ => k) t = k rest := by
  rcases h.wsEnd with ⟨h1, h2⟩ | ⟨t', h1, h2, -⟩
  · rw [bind_ok (opt_fail h1), bind_ok h2]
  · rw [bind_ok (opt_ok h1), bind_ok h2]

/-- As `After`, with `E` for what stands behind the last word. -/
def AftE (E : Text → Prop) : List String → Text → Prop
  | [], t => E t ∧ EndOfWord t ∧ (ws t = .fail ∨ ∃ t', ws t = .ok () t' ∧ EndOfWord t')
  | w :: ws, t => ∃ b t', b ≠ [] ∧ Blanks b ∧ t = b ++ (w.toList ++ t') ∧ AftE E ws t'

/-- As `Starts`, with `E` for what stands behind the last word. -/
def StaE (E : Text → Prop) : List String → Text → Prop
  | [], _ => False
  | w :: ws, t => ∃ t', t = w.toList ++ t' ∧ AftE E ws t'

theorem AftE.endOfWord {E : Text → Prop} {ws : List String} {t : Text} (h : AftE E ws t) : EndOfWord t := by
  cases ws with
  | nil => exact h.2.1
  | cons w ws =>
    obtain ⟨b, t', hne, hb, rfl, -⟩ := h
    cases b with
    | nil => exact absurd rfl hne
    | cons c b =>
      rcases hb c (by simp) with rfl | rfl
      · exact ⟨_, Or.inl rfl⟩
      · exact ⟨_, Or.inr (Or.inl rfl)⟩

/-- Blanks in front of a word. -/
theorem AftE.blanks {E : Text → Prop} {w : String} {wl : List String} {t : Text} (h : AftE E (w :: wl) t) (hw : Word w) :
    ∃ t', ws t = .ok () t' ∧ StaE E (w :: wl) t' := by
  obtain ⟨b, t', hne, hb, rfl, ht⟩ := h
  refine ⟨w.toList ++ t', ?_, t', rfl, ht⟩
  apply ws_ok hne hb
  intro c hc
  cases hl : w.toList with
  | nil => exact absurd hl hw.1
  | cons d l =>
    rw [hl] at hc; simp at hc; subst hc
    have := hw.2 d (by rw [hl]; simp)
    simp at this
    exact ⟨this.1, this.2.1⟩

theorem After.toE {rest : Text} : ∀ {ws : List String} {t : Text}, After rest ws t → AftE (After rest []) ws t
  | [], t, h => ⟨h, h.endOfWord, by
      rcases h.wsEnd with ⟨h1, -⟩ | ⟨t', h1, -, h3⟩
      · exact Or.inl h1
      · exact Or.inr ⟨t', h1, h3.endOfWord⟩⟩
  | _ :: _, _, ⟨b, t', h1, h2, h3, h4⟩ => ⟨b, t', h1, h2, h3, h4.toE⟩

theorem AftE.after {rest : Text} : ∀ {ws : List String} {t : Text}, AftE (After rest []) ws t → After rest ws t
  | [], _, h => h.1
  | _ :: _, _, ⟨b, t', h1, h2, h3, h4⟩ => ⟨b, t', h1, h2, h3, h4.after⟩

theorem Starts.toE {rest : Text} {ws : List String} {t : Text} (h : Starts rest ws t) : StaE (After rest []) ws t := by
  cases ws with
  | nil => exact h
  | cons w ws => obtain ⟨t', h1, h2⟩ := h; exact ⟨t', h1, h2.toE⟩

/-! ## references -/

theorem mem_keys {β : Type} {d : Dict String β} {n : String} {v : β} (h : Known d n v) : ∃ p ∈ d, p.1 = n := by
  induction d with
  | nil => cases h
  | cons p d ih =>
    obtain ⟨k, x⟩ := p
    by_cases hk : k = n
    · exact ⟨(k, x), by simp, hk⟩
    · simp only [Known, dGet, hk, if_false] at h
      obtain ⟨q, hq, he⟩ := ih h
      exact ⟨q, by simp [hq], he⟩

theorem keys_eq {β : Type} (d : Dict String β) : keys d = dKeys d := rfl

theorem not_mem_keys {β : Type} {d : Dict String β} {n : String} (h : ∀ v, ¬ Known d n v) : n ∉ keys d := by
  intro hm
  rw [keys_eq, ← dGet_isSome_iff] at hm
  obtain ⟨v, hv⟩ := Option.isSome_iff_exists.1 hm
  exact h v hv

theorem refer_known {g : Guard} (hg : GuardOk g) {β : Type} {d : Dict String β} (hd : ∀ p ∈ d, Word p.1)
    {w : String} {v : β} (h : Known d w v) {t : Text} (ht : EndOfWord t) :
    refer g wsOrNl d (w.toList ++ t) = .ok v t := by
  have hm : w ∈ keys d := by rw [keys_eq, ← dGet_isSome_iff, h]; rfl
  have hw : Word w := by obtain ⟨p, hp, rfl⟩ := mem_keys h; exact hd p hp
  have := C40_reference_is_the_word g (fun n c t hc => hg.passes n c t (by
    simp [isBlank] at hc; rcases hc with ((rfl | rfl) | rfl) | rfl <;> decide)) (keys d)
    (fun n hn => by
      simp only [keys, List.mem_map] at hn
      obtain ⟨p, hp, rfl⟩ := hn
      exact (hd p hp).noBlank) w hw.noBlank t ht
  unfold refer
  rw [this, if_pos hm]
  simp only
  rw [h]

theorem refer_unknown {g : Guard} (hg : GuardOk g) {β : Type} {d : Dict String β} (hd : ∀ p ∈ d, Word p.1)
    {w : String} (hw : ∀ c ∈ w.toList, isBlank c = false) (h : ∀ v, ¬ Known d w v) {t : Text} (ht : EndOfWord t) :
    refer g wsOrNl d (w.toList ++ t) = .fail := by
  have hm := not_mem_keys h
  have := C40_reference_is_the_word g (fun n c t hc => hg.passes n c t (by
    simp [isBlank] at hc; rcases hc with ((rfl | rfl) | rfl) | rfl <;> decide)) (keys d)
    (fun n hn => by
      simp only [keys, List.mem_map] at hn
      obtain ⟨p, hp, rfl⟩ := hn
      exact (hd p hp).noBlank) w hw t ht
  unfold refer
  rw [this, if_neg hm]

theorem Identifier.chars {w : String} (h : Identifier w) : w.toList ≠ [] ∧
    ∀ c ∈ w.toList, c.isAlphanum = true ∨ c ∈ ['_', '-', '.'] := by
  obtain ⟨c, t, hw, hc, ht⟩ := h
  rw [hw]
  refine ⟨by simp, ?_⟩
  intro d hd
  rcases List.mem_cons.1 hd with rfl | hd
  · rcases hc with hc | rfl
    · left; simp [Char.isAlphanum, hc]
    · right; simp
  · exact ht d hd

theorem Identifier.word {w : String} (h : Identifier w) : Word w := by
  refine ⟨h.chars.1, ?_⟩
  intro c hc hb
  have := h.chars.2 c hc
  simp only [List.mem_cons, List.not_mem_nil, or_false] at hb
  rcases hb with rfl | rfl | rfl | rfl <;> exact absurd this (by decide)

theorem Identifier.no {w : String} (h : Identifier w) {c : Char} (hc : c.isAlphanum = false) (h' : c ∉ ['_', '-', '.']) :
    c ∉ w.toList := by
  intro hm
  rcases h.chars.2 c hm with h1 | h1
  · rw [hc] at h1; cases h1
  · exact h' h1

/-- A word that is no name is not read as a name in front of a slash either. -/
theorem nameSlash_fail {e : Env} (he : e.WF) {w : String}
    (hs : '/' ∉ w.toList) {t : Text} (ht : EndOfWord t) : nameSlash e (w.toList ++ t) = .fail := by
  obtain ⟨s, u0, rfl, hsb, hsa⟩ := endOfWord_cons ht
  have key := internalIds_word (guard := e.guard) (stop := isBlank) (names := keys e.names) (w := w) (s := s) (rest := u0)
    (fun n c t hc => he.passes n c t (by
      simp [isBlank] at hc; rcases hc with ((rfl | rfl) | rfl) | rfl <;> decide))
    (fun n hn => by
      simp only [keys, List.mem_map] at hn
      obtain ⟨p, hp, rfl⟩ := hn
      exact (he.names p hp).word.noBlank) hsb
  have : reference e.guard slash (keys e.names) (w.toList ++ s :: u0) = none := by
    unfold reference
    by_cases hm : w ∈ keys e.names
    · rw [key.1 hm]
      have : slash (s :: u0) = false := by
        unfold slash; split
        · rename_i h; simp at h; obtain ⟨rfl, -⟩ := h; revert hsb; decide
        · rfl
      simp [this]
    · cases hi : internalIds e.guard (keys e.names) (w.toList ++ s :: u0) with
      | none => rfl
      | some p =>
        obtain ⟨n, r⟩ := p
        obtain ⟨-, c, u, rfl, hc⟩ := key.2 hm n r hi
        have hcs : c ≠ '/' := by rintro rfl; exact hs (by rw [← hc]; simp)
        have : slash (c :: (u ++ s :: u0)) = false := by
          unfold slash; split
          · rename_i h; simp at h; exact absurd h.1 hcs
          · rfl
        simp [this]
  unfold nameSlash refer
  rw [this]

theorem nameWs_known {e : Env} (he : e.WF) {w : String} {a : Addr} (h : Known e.names w a) {t : Text}
    (ht : EndOfWord t) : nameWs e (w.toList ++ t) = .ok a t :=
  refer_known he.guardOk (fun p hp => (he.names p hp).word) h ht

theorem nameWs_fail {e : Env} (he : e.WF) {w : String} (hw : ∀ c ∈ w.toList, isBlank c = false)
    (h : ∀ v, ¬ Known e.names w v) {t : Text} (ht : EndOfWord t) : nameWs e (w.toList ++ t) = .fail :=
  refer_unknown he.guardOk (fun p hp => (he.names p hp).word) hw h ht

theorem slash_pass {e : Env} (he : e.WF) : ∀ n t, e.guard n ('/' :: t) = true :=
  fun n t => he.passes n '/' t (by decide)

theorem names_no_slash {e : Env} (he : e.WF) : ∀ n ∈ keys e.names, '/' ∉ n.toList := by
  intro n hn
  simp only [keys, List.mem_map] at hn
  obtain ⟨p, hp, rfl⟩ := hn
  exact (he.names p hp).no (by decide) (by decide)

theorem nameSlash_known {e : Env} (he : e.WF) {w : String} {a : Addr} (h : Known e.names w a) (t : Text) :
    nameSlash e (w.toList ++ '/' :: t) = .ok a ('/' :: t) := by
  have hm : w ∈ keys e.names := by rw [keys_eq, ← dGet_isSome_iff, h]; rfl
  have := C40_reference_before_slash e.guard (slash_pass he) (keys e.names) (names_no_slash he) w
    (names_no_slash he w hm) t
  unfold nameSlash refer
  rw [this, if_pos hm]
  simp only
  rw [h]

theorem nameSlash_unknown {e : Env} (he : e.WF) {w : List Char} (hw : '/' ∉ w)
    (h : ∀ v, ¬ Known e.names (String.ofList w) v) (t : Text) : nameSlash e (w ++ '/' :: t) = .fail := by
  have := C40_reference_before_slash e.guard (slash_pass he) (keys e.names) (names_no_slash he) (String.ofList w)
    (by simpa using hw) t
  rw [if_neg (not_mem_keys h)] at this
  simp only [String.toList_ofList] at this
  unfold nameSlash refer
  rw [this]

/-- An address text is no name. -/
theorem dotted_no_name {e : Env} (he : e.WF) {w : String} {n : Nat} (hn : n < 2 ^ 32) (h : w.toList = Dotted n) :
    ∀ v, ¬ Known e.names w v := by
  intro v hv
  obtain ⟨p, hp, rfl⟩ := mem_keys hv
  obtain ⟨c, t, hw, hc, -⟩ := he.names p hp
  rw [h, dotted_eq hn] at hw
  have : c.isDigit = true ∨ c = '.' := fmtV4_chars (n := n) (by rw [hw]; simp)
  have hd : c.isDigit = true ∨ c = '.' := this
  rcases hc with hc | rfl
  · rcases hd with hd | rfl
    · rcases digit_cases hd with rfl | rfl | rfl | rfl | rfl | rfl | rfl | rfl | rfl | rfl <;> revert hc <;> decide
    · revert hc; decide
  · revert hd; decide

theorem colon_no_name {e : Env} (he : e.WF) {w : String} (h : ':' ∈ w.toList) : ∀ v, ¬ Known e.names w v := by
  intro v hv
  obtain ⟨p, hp, rfl⟩ := mem_keys hv
  exact (he.names p hp).no (by decide) (by decide) h

theorem slash_no_name {e : Env} (he : e.WF) {w : String} (h : '/' ∈ w.toList) : ∀ v, ¬ Known e.names w v := by
  intro v hv
  obtain ⟨p, hp, rfl⟩ := mem_keys hv
  exact (he.names p hp).no (by decide) (by decide) h

/-! ## words of addresses -/

theorem dotted_head {n : Nat} (hn : n < 2 ^ 32) : ∃ c t, Dotted n = c :: t ∧ c.isDigit = true := by
  rw [dotted_eq hn]
  have e : fmtV4 n = decText (n / 2 ^ 24 % 256) ++ '.' :: joinWith '.' [decText (n / 2 ^ 16 % 256),
    decText (n / 2 ^ 8 % 256), decText (n % 256)] := rfl
  rw [e]
  have h1 := decText_ne_nil (n / 2 ^ 24 % 256)
  have h2 := isDigits_decText (n / 2 ^ 24 % 256)
  cases h : decText (n / 2 ^ 24 % 256) with
  | nil => exact absurd h h1
  | cons c t =>
    rw [h] at h2
    simp [isDigits] at h2
    exact ⟨c, _, rfl, h2.1⟩

theorem dotted_word {w : String} {n : Nat} (hn : n < 2 ^ 32) (h : w.toList = Dotted n) : Word w := by
  obtain ⟨c, t, hc, -⟩ := dotted_head hn
  refine ⟨by rw [h, hc]; simp, ?_⟩
  intro d hd hb
  rw [h, dotted_eq hn] at hd
  have := fmtV4_chars hd
  simp only [List.mem_cons, List.not_mem_nil, or_false] at hb
  rcases hb with rfl | rfl | rfl | rfl <;> revert this <;> decide

theorem v6_chars {s : List Char} {n : Nat} (h : V6Text s n) :
    ':' ∈ s ∧ ∀ c ∈ s, (isHex c || c == '.' || c == ':') = true := by
  obtain ⟨a, r, rfl, h1, h2, h3⟩ := v6Text_shape h
  refine ⟨by simp, ?_⟩
  intro c hc
  rcases List.mem_append.1 hc with hc | hc
  · simp [h1 c hc]
  · rcases List.mem_cons.1 hc with rfl | hc
    · decide
    · exact h3 c hc

theorem v6_no {s : List Char} {n : Nat} (h : V6Text s n) {c : Char} (hc : (isHex c || c == '.' || c == ':') = false) :
    c ∉ s := by
  intro hm
  rw [(v6_chars h).2 c hm] at hc; cases hc

theorem v6_word {w : String} {n : Nat} (h : V6Text w.toList n) : Word w := by
  refine ⟨?_, ?_⟩
  · intro e
    have := (v6_chars h).1
    rw [e] at this; simp at this
  · intro c hc hb
    have := (v6_chars h).2 c hc
    simp only [List.mem_cons, List.not_mem_nil, or_false] at hb
    rcases hb with rfl | rfl | rfl | rfl <;> revert this <;> decide

theorem AddrWord.word {e : Env} (he : e.WF) {w : String} {a : Addr} (h : AddrWord e w a) : Word w := by
  cases h with
  | v4 n hn hw => exact dotted_word hn hw
  | v6 n hw => exact v6_word hw
  | name a hk => obtain ⟨p, hp, rfl⟩ := mem_keys hk; exact (he.names p hp).word

theorem endOfWord_not_hex {t : Text} (h : EndOfWord t) : ∀ c ∈ t.head?, (isHex c || c == '.' || c == ':') = false := by
  obtain ⟨u, rfl | rfl | rfl | rfl⟩ := h <;> (intro c hc; simp at hc; subst hc; decide)

theorem endOfWord_not_digit {t : Text} (h : EndOfWord t) : ∃ s u, t = s :: u ∧ s.isDigit = false := by
  obtain ⟨u, rfl | rfl | rfl | rfl⟩ := h <;> exact ⟨_, _, rfl, by decide⟩

theorem addrWord_read {e : Env} (he : e.WF) {w : String} {a : Addr} (h : AddrWord e w a) {t : Text} (ht : EndOfWord t) :
    alts [nameWs e, nameSlash e, ip4, ip6] (w.toList ++ t) = .ok a t := by
  have hw := h.word he
  cases h with
  | v4 n hn hd =>
    rw [alts_fail (nameWs_fail he hw.noBlank (dotted_no_name he hn hd) ht),
      alts_fail (nameSlash_fail he (by
        rw [hd, dotted_eq hn]; exact fmtV4_no n (by decide) (by decide)) ht)]
    obtain ⟨s, u, rfl, hs⟩ := endOfWord_not_digit ht
    rw [hd]
    exact alts_ok (ip4_dotted hn hs)
  | v6 n h6 =>
    rw [alts_fail (nameWs_fail he hw.noBlank (colon_no_name he (v6_chars h6).1) ht),
      alts_fail (nameSlash_fail he (v6_no h6 (by decide)) ht),
      alts_fail (ip4_v6 h6 t)]
    exact alts_ok (ip6_text h6 (endOfWord_not_hex ht))
  | name a hk => exact alts_ok (nameWs_known he hk ht)

end Acltk.AclText
