import Verif.Lemmas.AclText
/-!
# Reading the hosts of an access-list line
-/
namespace Acltk.AclText
open Acltk Acltk.Lookup Acltk.Peg

/-- The list of static tokens contains no blanks. -/
theorem kwNoBlank {l : List String} (h : (l.all (fun k => k.toList.all (fun c => !isBlank c))) = true) :
    ∀ k ∈ l, ∀ c ∈ k.toList, isBlank c = false := by
  intro k hk c hc
  have := List.all_eq_true.1 (List.all_eq_true.1 h k hk) c hc
  simpa using this

theorem noBlank_of_decide {k : String} (h : (k.toList.all (fun c => !isBlank c)) = true) :
    ∀ c ∈ k.toList, isBlank c = false := by
  intro c hc
  have := List.all_eq_true.1 h c hc
  simpa using this

theorem word_of_decide {k : String} (h : (!k.toList.isEmpty && k.toList.all (fun c => !isBlank c)) = true) : Word k := by
  rw [Bool.and_eq_true] at h
  refine ⟨?_, fun c hc => blank_iff.1 (noBlank_of_decide h.2 c hc)⟩
  intro e; rw [e] at h; simp at h

/-- None of the keyword alternatives takes this word. -/
def NoKeyword (w : String) : Prop :=
  w ∉ ["host", "ip", "interface", "object", "object-group"] ∧ ∀ k ∈ ["any", "any4", "any6"], mayMatch w k = false

theorem aclHost_skip {e : Env} (he : e.WF) {w : String} (hw : Word w) (hn : NoKeyword w) {t : Text} (ht : EndOfWord t) :
    aclHost e (w.toList ++ t) = alts
      [ do
          let a ← alt (nameWs e) ip4
          ws
          let m ← ip4
          let n ← act (mkNetwork a.text m.text)
          pure (.net n),
        do
          let a ← alt (nameSlash e) ip6
          slashP
          let m ← intP
          let n ← act (mkNetwork a.text m)
          pure (.net n) ] (w.toList ++ t) := by
  have hg := he.guardOk
  have hn1 := hn.1
  simp only [List.mem_cons, List.not_mem_nil, or_false, not_or] at hn1
  unfold aclHost
  rw [alts_fail (kws_other hg (kwNoBlank (by decide +kernel)) hw.noBlank ht (by simp [hn1]))]
  rw [alts_fail (kw_other hg (noBlank_of_decide (by decide +kernel)) hw.noBlank ht hn1.2.2.1)]
  rw [alts_fail (bind_fail (oneOf_no hg ht (kwNoBlank (by decide +kernel)) hn.2))]
  rw [alts_fail (kw_other hg (noBlank_of_decide (by decide +kernel)) hw.noBlank ht hn1.2.2.2.1)]
  rw [alts_fail (kw_other hg (noBlank_of_decide (by decide +kernel)) hw.noBlank ht hn1.2.2.2.2)]

theorem not_any_of_not_prefix {w : String} (h : ¬ "any".toList <+: w.toList) :
    ∀ k ∈ ["any", "any4", "any6"], mayMatch w k = false := by
  have e4 : "any".toList <+: "any4".toList := ⟨['4'], by decide⟩
  have e6 : "any".toList <+: "any6".toList := ⟨['6'], by decide⟩
  have key : ∀ k : String, "any".toList <+: k.toList → mayMatch w k = false := by
    intro k hk
    unfold mayMatch
    rw [Bool.or_eq_false_iff]
    constructor
    · rw [beq_eq_false_iff_ne]; rintro rfl; exact h hk
    · rw [Bool.and_eq_false_iff]; left
      rw [Bool.eq_false_iff]
      intro hp
      rw [List.isPrefixOf_iff_prefix] at hp
      exact h (hk.trans hp)
  intro k hk
  simp only [List.mem_cons, List.not_mem_nil, or_false] at hk
  rcases hk with rfl | rfl | rfl
  · exact key _ (List.prefix_refl _)
  · exact key _ e4
  · exact key _ e6

theorem dotted_noKeyword {w : String} {n : Nat} (hn : n < 2 ^ 32) (h : w.toList = Dotted n) : NoKeyword w := by
  obtain ⟨c, t, hc, hd⟩ := dotted_head hn
  have hh : ∀ k : String, (k.toList.head?.map Char.isDigit).getD true = false → w ≠ k := by
    rintro k hk rfl
    rw [h, hc] at hk; simp [hd] at hk
  constructor
  · simp only [List.mem_cons, List.not_mem_nil, or_false, not_or]
    exact ⟨hh _ (by decide), hh _ (by decide), hh _ (by decide), hh _ (by decide), hh _ (by decide)⟩
  · apply not_any_of_not_prefix
    rintro ⟨u, hu⟩
    rw [h, hc] at hu
    have : "any".toList = ['a', 'n', 'y'] := by decide
    rw [this] at hu
    simp at hu
    rw [← hu.1] at hd; revert hd; decide

theorem v6_noKeyword {w : String} {a m : List Char} {n : Nat} (h : V6Text a n) (hw : w.toList = a ++ m) : NoKeyword w := by
  have hcol : ':' ∈ w.toList := by rw [hw]; exact List.mem_append.2 (Or.inl (v6_chars h).1)
  have hh : ∀ k : String, ':' ∉ k.toList → w ≠ k := by rintro k hk rfl; exact hk hcol
  constructor
  · simp only [List.mem_cons, List.not_mem_nil, or_false, not_or]
    exact ⟨hh _ (by decide), hh _ (by decide), hh _ (by decide), hh _ (by decide), hh _ (by decide)⟩
  · apply not_any_of_not_prefix
    rintro ⟨u, hu⟩
    rw [hw] at hu
    have e : "any".toList = ['a', 'n', 'y'] := by decide
    rw [e] at hu
    obtain ⟨b, r, rfl, h1, h2, h3⟩ := v6Text_shape h
    have n1 : isHex 'n' = false := by decide
    cases b with
    | nil => simp at hu
    | cons c b =>
      cases b with
      | nil => simp at hu
      | cons d b =>
        simp at hu
        have := h1 d (by simp)
        rw [← hu.2.1, n1] at this; cases this

theorem plain_noKeyword {w : String} (h : PlainName w) : NoKeyword w := by
  have h1 := h.1
  simp only [keywords, List.mem_cons, List.not_mem_nil, or_false, not_or] at h1
  constructor
  · simp only [List.mem_cons, List.not_mem_nil, or_false, not_or]
    simp [h1]
  · intro k hk
    have hne : (k == w) = false := by
      rw [beq_eq_false_iff_ne]
      rintro rfl
      simp only [List.mem_cons, List.not_mem_nil, or_false] at hk
      rcases hk with rfl | rfl | rfl <;> simp at h1
    unfold mayMatch
    rw [hne, Bool.false_or, Bool.and_eq_false_iff]
    by_cases hp : k.toList.isPrefixOf w.toList = true
    · right
      rw [List.isPrefixOf_iff_prefix] at hp
      obtain ⟨u, hu⟩ := hp
      cases u with
      | nil =>
        rw [List.append_nil] at hu
        rw [beq_eq_false_iff_ne] at hne
        exact absurd (String.toList_inj.1 hu) hne
      | cons c u =>
        have hc := h.2 k hk c u hu.symm
        have hd : w.toList.drop k.toList.length = c :: u := by rw [← hu, List.drop_left]
        rw [hd]
        have hall : k.toList.all Char.isAlphanum = true ∧ (k.toList.head?.map Char.isAlpha).getD false = true := by
          simp only [List.mem_cons, List.not_mem_nil, or_false] at hk
          rcases hk with rfl | rfl | rfl <;> decide
        simp [hall.2, hc]
        intro x hx
        exact List.all_eq_true.1 hall.1 x hx
    · left; simpa [Bool.eq_false_iff] using hp

/-- A name followed by a slash is taken by no keyword if the name is not. -/
theorem slashName_noKeyword {w a : String} {m : List Char} (h : PlainName a) (hw : w.toList = a.toList ++ '/' :: m) :
    NoKeyword w := by
  have hs : '/' ∈ w.toList := by rw [hw]; simp
  have hh : ∀ k : String, '/' ∉ k.toList → w ≠ k := by rintro k hk rfl; exact hk hs
  constructor
  · simp only [List.mem_cons, List.not_mem_nil, or_false, not_or]
    exact ⟨hh _ (by decide), hh _ (by decide), hh _ (by decide), hh _ (by decide), hh _ (by decide)⟩
  · intro k hk
    have hks : '/' ∉ k.toList := by
      simp only [List.mem_cons, List.not_mem_nil, or_false] at hk
      rcases hk with rfl | rfl | rfl <;> decide
    have hne : (k == w) = false := by rw [beq_eq_false_iff_ne]; exact (hh k hks).symm
    unfold mayMatch
    rw [hne, Bool.false_or, Bool.and_eq_false_iff]
    by_cases hp : k.toList.isPrefixOf w.toList = true
    · right
      rw [List.isPrefixOf_iff_prefix] at hp
      obtain ⟨u, hu⟩ := hp
      rw [hw] at hu
      have hp' : k.toList <+: a.toList :=
        prefix_of_word (stop := fun c => c == '/') (n := k.toList) (w := a.toList) (s := '/') (rest := m) (tail := u)
          (by intro c hc; rw [beq_eq_false_iff_ne]; rintro rfl; exact hks hc) (by simp) hu.symm
      obtain ⟨v, hv⟩ := hp'
      cases v with
      | nil =>
        rw [List.append_nil] at hv
        have : k = a := String.toList_inj.1 hv
        subst this
        have h1 := h.1
        simp only [keywords, List.mem_cons, List.not_mem_nil, or_false, not_or] at h1
        simp only [List.mem_cons, List.not_mem_nil, or_false] at hk
        rcases hk with rfl | rfl | rfl <;> simp at h1
      | cons c v =>
        have hc := h.2 k hk c v hv.symm
        have hd : w.toList.drop k.toList.length = c :: (v ++ '/' :: m) := by
          rw [hw, ← hv, List.append_assoc, List.drop_left]; rfl
        rw [hd]
        have hall : k.toList.all Char.isAlphanum = true ∧ (k.toList.head?.map Char.isAlpha).getD false = true := by
          simp only [List.mem_cons, List.not_mem_nil, or_false] at hk
          rcases hk with rfl | rfl | rfl <;> decide
        simp [hall.2, hc]
        intro x hx
        exact List.all_eq_true.1 hall.1 x hx
    · left; simpa [Bool.eq_false_iff] using hp

/-- The network is determined by what it must be. -/
theorem mkNetwork_networkOf {a : Addr} (ha : a.Valid) {m : List Char} {p : Nat} {n : Net} (hm : MaskText a.ver m p)
    (hn : NetworkOf a p n) : mkNetwork a.text m = .ok n := by
  obtain ⟨net, h1, h2, h3, h4, h5⟩ := C19_network_denotes a.text m a p (ipAddress_text ha) hm
  rw [h1]
  obtain ⟨g2, g3, g4, g5⟩ := hn
  congr 1
  have hv : net.ver = n.ver := by rw [h2, g2]
  have hp : net.plen = n.plen := by rw [h3, g3]
  have hd : net.addr = n.addr := by
    apply Nat.eq_of_testBit_eq
    intro i
    by_cases hi : i < a.ver.width - p
    · rw [h5 i hi, g5 i hi]
    · have b1 := ((h4 ⟨net.ver, net.addr⟩).1 ⟨rfl, Nat.le_refl _, by
        have := Nat.two_pow_pos (net.ver.width - net.plen); simp only; omega⟩).2 i (by omega)
      have b2 := ((g4 ⟨n.ver, n.addr⟩).1 ⟨rfl, Nat.le_refl _, by
        have := Nat.two_pow_pos (n.ver.width - n.plen); simp only; omega⟩).2 i (by omega)
      simp only at b1 b2
      rw [b1, b2]
  cases net; cases n; simp_all

theorem HostWords.words {e : Env} (he : e.WF) {hw : List String} {h : Host} (hh : HostWords e hw h) :
    hw ≠ [] ∧ ∀ w ∈ hw, Word w := by
  have two : ∀ {a b : String}, Word a → Word b → [a, b] ≠ [] ∧ ∀ w ∈ [a, b], Word w := by
    intro a b ha hb
    refine ⟨by simp, ?_⟩
    intro w hw
    simp only [List.mem_cons, List.not_mem_nil, or_false] at hw
    rcases hw with rfl | rfl
    · exact ha
    · exact hb
  have one : ∀ {a : String}, Word a → [a] ≠ [] ∧ ∀ w ∈ [a], Word w := by
    intro a ha
    refine ⟨by simp, ?_⟩
    intro w hw
    simp only [List.mem_cons, List.not_mem_nil, or_false] at hw
    subst hw; exact ha
  have digits : ∀ {m : List Char}, (∀ c ∈ m, c.isDigit = true) → ∀ c ∈ m, c ∉ [' ', '\t', '\n', '\r'] := by
    intro m hm c hc hb
    have := hm c hc
    simp only [List.mem_cons, List.not_mem_nil, or_false] at hb
    rcases hb with rfl | rfl | rfl | rfl <;> revert this <;> decide
  have sl : ∀ {w : String} {a m : List Char}, w.toList = a ++ '/' :: m → (∀ c ∈ a, c ∉ [' ', '\t', '\n', '\r']) →
      (∀ c ∈ m, c.isDigit = true) → Word w := by
    intro w a m hw ha hm
    refine ⟨by rw [hw]; simp, ?_⟩
    intro c hc
    rw [hw] at hc
    rcases List.mem_append.1 hc with hc | hc
    · exact ha c hc
    · rcases List.mem_cons.1 hc with rfl | hc
      · decide
      · exact digits hm c hc
  cases hh with
  | any => exact one (word_of_decide (by decide +kernel))
  | any4 => exact one (word_of_decide (by decide +kernel))
  | any6 => exact one (word_of_decide (by decide +kernel))
  | host k w a hk ha =>
    refine two ?_ (ha.word he)
    simp only [List.mem_cons, List.not_mem_nil, or_false] at hk
    rcases hk with rfl | rfl <;> exact word_of_decide (by decide +kernel)
  | interface w hi => exact two (word_of_decide (by decide +kernel)) hi.word
  | object w h hk =>
    obtain ⟨p, hp, rfl⟩ := mem_keys hk
    exact two (word_of_decide (by decide +kernel)) (he.netObjs p hp)
  | group w h hk =>
    obtain ⟨p, hp, rfl⟩ := mem_keys hk
    exact two (word_of_decide (by decide +kernel)) (he.netGroups p hp)
  | masked w m x q p n hx hw hq hm => exact two (dotted_word hx hw) (dotted_word hq hm)
  | maskedName w m x q p n hk hx _ hq hm =>
    obtain ⟨r, hr, rfl⟩ := mem_keys hk
    exact two (he.names r hr).word (dotted_word hq hm)
  | slash w a m x p n ha hw hm => exact one (sl hw (fun c hc => by
      have := (v6_word (w := String.ofList a) (n := x) (by simpa using ha)).2 c (by simpa using hc)
      exact this) hm)
  | slashName w a m x p n hk _ _ hw hm =>
    obtain ⟨r, hr, rfl⟩ := mem_keys hk
    exact one (sl hw (he.names r hr).word.2 hm)

theorem intP_digits {m : List Char} (hne : m ≠ []) (hm : ∀ c ∈ m, c.isDigit = true) {t : Text} (ht : EndOfWord t) :
    intP (m ++ t) = .ok m t := by
  apply pat_plus hne hm
  obtain ⟨s, u, rfl, hs⟩ := endOfWord_not_digit ht
  intro c hc; simp at hc; subst hc; exact hs

theorem identifier_read {w : String} (h : Identifier w) {t : Text} (ht : EndOfWord t) :
    identifier (w.toList ++ t) = .ok w.toList t := by
  obtain ⟨c, l, hw, hc, hl⟩ := h
  rw [hw]
  apply pat_cls_star (c := c) (w := l)
  · rcases hc with hc | rfl
    · simp [hc]
    · decide
  · intro d hd
    rcases hl d hd with h | h
    · simp [h]
    · simp only [List.mem_cons, List.not_mem_nil, or_false] at h
      rcases h with rfl | rfl | rfl <;> decide
  · obtain ⟨u, rfl | rfl | rfl | rfl⟩ := ht <;> (intro c hc; simp at hc; subst hc; decide)

/-- **Hosts.** The words of a host are read as that host. -/
theorem host_readE {e : Env} (he : e.WF) {hw : List String} {h : Host} (hh : HostWords e hw h) {E : Text → Prop}
    {more : List String} {t : Text} (hs : StaE E (hw ++ more) t) :
    ∃ t', aclHost e t = .ok h t' ∧ AftE E more t' := by
  have hg := he.guardOk
  have hwords := (hh.words he).2
  cases hh with
  | any =>
    obtain ⟨t', rfl, ht⟩ := hs
    have ht : AftE E more t' := ht
    refine ⟨t', ?_, ht⟩
    have hw : Word "any" := hwords _ (by simp)
    unfold aclHost
    rw [alts_fail (kws_other hg (kwNoBlank (by decide +kernel)) hw.noBlank ht.endOfWord (by decide)),
      alts_fail (kw_other hg (noBlank_of_decide (by decide +kernel)) hw.noBlank ht.endOfWord (by decide))]
    apply alts_ok
    rw [bind_ok (oneOf_word hg ht.endOfWord (kwNoBlank (by decide +kernel)) (by decide +kernel))]
    rfl
  | any4 =>
    obtain ⟨t', rfl, ht⟩ := hs
    have ht : AftE E more t' := ht
    refine ⟨t', ?_, ht⟩
    have hw : Word "any4" := hwords _ (by simp)
    unfold aclHost
    rw [alts_fail (kws_other hg (kwNoBlank (by decide +kernel)) hw.noBlank ht.endOfWord (by decide)),
      alts_fail (kw_other hg (noBlank_of_decide (by decide +kernel)) hw.noBlank ht.endOfWord (by decide))]
    apply alts_ok
    rw [bind_ok (oneOf_word hg ht.endOfWord (kwNoBlank (by decide +kernel)) (by decide +kernel))]
    rfl
  | any6 =>
    obtain ⟨t', rfl, ht⟩ := hs
    have ht : AftE E more t' := ht
    refine ⟨t', ?_, ht⟩
    have hw : Word "any6" := hwords _ (by simp)
    unfold aclHost
    rw [alts_fail (kws_other hg (kwNoBlank (by decide +kernel)) hw.noBlank ht.endOfWord (by decide)),
      alts_fail (kw_other hg (noBlank_of_decide (by decide +kernel)) hw.noBlank ht.endOfWord (by decide))]
    apply alts_ok
    rw [bind_ok (oneOf_word hg ht.endOfWord (kwNoBlank (by decide +kernel)) (by decide +kernel))]
    rfl
  | host k w a hk ha =>
    obtain ⟨t1, rfl, ht⟩ := hs
    have ht : AftE E (w :: more) t1 := ht
    obtain ⟨t2, h2, t', rfl, h3⟩ := ht.blanks (hwords w (by simp))
    refine ⟨t', ?_, h3⟩
    unfold aclHost
    apply alts_ok
    rw [bind_ok (oneOf_word hg ht.endOfWord (kwNoBlank (by decide +kernel)) (by
      simp only [List.mem_cons, List.not_mem_nil, or_false] at hk
      rcases hk with rfl | rfl <;> decide +kernel)), bind_ok h2, bind_ok (addrWord_read he ha h3.endOfWord)]
    rfl
  | interface w hi =>
    obtain ⟨t1, rfl, ht⟩ := hs
    have ht : AftE E (w :: more) t1 := ht
    obtain ⟨t2, h2, t', rfl, h3⟩ := ht.blanks (hwords w (by simp))
    refine ⟨t', ?_, h3⟩
    have hw : Word "interface" := hwords _ (by simp)
    unfold aclHost
    rw [alts_fail (kws_other hg (kwNoBlank (by decide +kernel)) hw.noBlank ht.endOfWord (by decide))]
    apply alts_ok
    rw [bind_ok ((tok_word (noBlank_of_decide (by decide +kernel)) ht.endOfWord hg.passes).1 rfl), bind_ok h2,
      bind_ok (identifier_read hi h3.endOfWord)]
    rw [String.ofList_toList]; rfl
  | object w h hk =>
    obtain ⟨t1, rfl, ht⟩ := hs
    have ht : AftE E (w :: more) t1 := ht
    obtain ⟨t2, h2, t', rfl, h3⟩ := ht.blanks (hwords w (by simp))
    refine ⟨t', ?_, h3⟩
    have hw : Word "object" := hwords _ (by simp)
    unfold aclHost
    rw [alts_fail (kws_other hg (kwNoBlank (by decide +kernel)) hw.noBlank ht.endOfWord (by decide)),
      alts_fail (kw_other hg (noBlank_of_decide (by decide +kernel)) hw.noBlank ht.endOfWord (by decide)),
      alts_fail (bind_fail (oneOf_no hg ht.endOfWord (kwNoBlank (by decide +kernel)) (by decide +kernel)))]
    apply alts_ok
    rw [bind_ok ((tok_word (noBlank_of_decide (by decide +kernel)) ht.endOfWord hg.passes).1 rfl), bind_ok h2]
    exact refer_known hg he.netObjs hk h3.endOfWord
  | group w h hk =>
    obtain ⟨t1, rfl, ht⟩ := hs
    have ht : AftE E (w :: more) t1 := ht
    obtain ⟨t2, h2, t', rfl, h3⟩ := ht.blanks (hwords w (by simp))
    refine ⟨t', ?_, h3⟩
    have hw : Word "object-group" := hwords _ (by simp)
    unfold aclHost
    rw [alts_fail (kws_other hg (kwNoBlank (by decide +kernel)) hw.noBlank ht.endOfWord (by decide)),
      alts_fail (kw_other hg (noBlank_of_decide (by decide +kernel)) hw.noBlank ht.endOfWord (by decide)),
      alts_fail (bind_fail (oneOf_no hg ht.endOfWord (kwNoBlank (by decide +kernel)) (by decide +kernel))),
      alts_fail (kw_other hg (noBlank_of_decide (by decide +kernel)) hw.noBlank ht.endOfWord (by decide))]
    apply alts_ok
    rw [bind_ok ((tok_word (noBlank_of_decide (by decide +kernel)) ht.endOfWord hg.passes).1 rfl), bind_ok h2]
    exact refer_known hg he.netGroups hk h3.endOfWord
  | masked w m x q p n hx hw hq hm hmask hnet =>
    obtain ⟨t1, rfl, ht⟩ := hs
    have ht : AftE E (m :: more) t1 := ht
    obtain ⟨t2, h2, t', rfl, h3⟩ := ht.blanks (hwords m (by simp))
    refine ⟨t', ?_, h3⟩
    have hwd := hwords w (by simp)
    rw [aclHost_skip he hwd (dotted_noKeyword hx hw) ht.endOfWord]
    apply alts_ok
    obtain ⟨s, u, e1, hs1⟩ := endOfWord_not_digit ht.endOfWord
    obtain ⟨s2, u2, e2, hs2⟩ := endOfWord_not_digit h3.endOfWord
    have a1 : alt (nameWs e) ip4 (w.toList ++ t1) = .ok ⟨.v4, x⟩ t1 := by
      rw [alt_fail (nameWs_fail he hwd.noBlank (dotted_no_name he hx hw) ht.endOfWord), hw, e1]
      exact ip4_dotted hx hs1
    have a2 : ip4 (m.toList ++ t') = .ok ⟨.v4, q⟩ t' := by
      rw [hm, e2]; exact ip4_dotted hq hs2
    rw [bind_ok a1, bind_ok h2, bind_ok a2]
    have : mkNetwork (Addr.text ⟨.v4, x⟩) (Addr.text ⟨.v4, q⟩) = .ok n := by
      apply mkNetwork_networkOf (a := ⟨.v4, x⟩) (p := p) hx _ hnet
      have : Addr.text ⟨.v4, q⟩ = m.toList := by rw [hm, dotted_eq hq]; rfl
      rw [this]; exact hmask
    rw [bind_ok (act_ok this _)]; rfl
  | maskedName w m x q p n hk hx hpl hq hm hmask hnet =>
    obtain ⟨t1, rfl, ht⟩ := hs
    have ht : AftE E (m :: more) t1 := ht
    obtain ⟨t2, h2, t', rfl, h3⟩ := ht.blanks (hwords m (by simp))
    refine ⟨t', ?_, h3⟩
    have hwd := hwords w (by simp)
    rw [aclHost_skip he hwd (plain_noKeyword hpl) ht.endOfWord]
    apply alts_ok
    obtain ⟨s2, u2, e2, hs2⟩ := endOfWord_not_digit h3.endOfWord
    have a1 : alt (nameWs e) ip4 (w.toList ++ t1) = .ok ⟨.v4, x⟩ t1 :=
      alt_ok (nameWs_known he hk ht.endOfWord)
    have a2 : ip4 (m.toList ++ t') = .ok ⟨.v4, q⟩ t' := by
      rw [hm, e2]; exact ip4_dotted hq hs2
    rw [bind_ok a1, bind_ok h2, bind_ok a2]
    have : mkNetwork (Addr.text ⟨.v4, x⟩) (Addr.text ⟨.v4, q⟩) = .ok n := by
      apply mkNetwork_networkOf (a := ⟨.v4, x⟩) (p := p) hx _ hnet
      have : Addr.text ⟨.v4, q⟩ = m.toList := by rw [hm, dotted_eq hq]; rfl
      rw [this]; exact hmask
    rw [bind_ok (act_ok this _)]; rfl
  | slash w a m x p n ha hw hm hmask hnet =>
    obtain ⟨t', rfl, ht⟩ := hs
    have ht : AftE E more t' := ht
    refine ⟨t', ?_, ht⟩
    have hwd := hwords w (by simp)
    have hcol : ':' ∈ w.toList := by rw [hw]; exact List.mem_append.2 (Or.inl (v6_chars ha).1)
    have hmne : m ≠ [] := by
      rintro rfl
      cases hmask with
      | prefixLen h => exact h rfl
      | netmask h => cases h
      | hostmask h => cases h
    rw [aclHost_skip he hwd (v6_noKeyword ha hw) ht.endOfWord]
    have f1 : alt (nameWs e) ip4 (w.toList ++ t') = .fail := by
      rw [alt_fail (nameWs_fail he hwd.noBlank (colon_no_name he hcol) ht.endOfWord), hw, List.append_assoc]
      exact ip4_v6 ha _
    rw [alts_fail (bind_fail f1)]
    apply alts_ok
    have ew : w.toList ++ t' = a ++ '/' :: (m ++ t') := by rw [hw]; simp
    have a1 : alt (nameSlash e) ip6 (w.toList ++ t') = .ok ⟨.v6, x⟩ ('/' :: (m ++ t')) := by
      rw [ew, alt_fail (nameSlash_unknown he (v6_no ha (by decide)) (colon_no_name he (by
        simpa using (v6_chars ha).1)) _)]
      apply ip6_text ha
      intro c hc; simp at hc; subst hc; decide
    have a2 : slashP ('/' :: (m ++ t')) = .ok () (m ++ t') := rfl
    rw [bind_ok a1, bind_ok a2, bind_ok (intP_digits hmne hm ht.endOfWord)]
    have hv : (⟨.v6, x⟩ : Addr).Valid := by
      have := ((C64_address_text a).2.1 x).2 ha
      exact ipAddress_valid this
    rw [bind_ok (act_ok (mkNetwork_networkOf hv hmask hnet) _)]; rfl
  | slashName w a m x p n hk hv hpl hw hm hmask hnet =>
    obtain ⟨t', rfl, ht⟩ := hs
    have ht : AftE E more t' := ht
    refine ⟨t', ?_, ht⟩
    have hwd := hwords w (by simp)
    have hsl : '/' ∈ w.toList := by rw [hw]; simp
    have hmne : m ≠ [] := by
      rintro rfl
      cases hmask with
      | prefixLen h => exact h rfl
      | netmask h _ h3 =>
        rename_i h2
        have := (dotted_no (q := 2 ^ 32 - 2 ^ (32 - p)) (by have := Nat.two_pow_pos (32 - p); omega)).2
        rw [← h3] at this; simp at this
      | hostmask h h1 h2 h3 =>
        have hlt : 2 ^ (32 - p) - 1 < 2 ^ 32 := by
          have : 2 ^ (32 - p) ≤ 2 ^ 32 := Nat.pow_le_pow_right (by decide) (by omega)
          have := Nat.two_pow_pos (32 - p)
          omega
        have := (dotted_no hlt).2
        rw [← h3] at this; simp at this
    have hid : Identifier a := by obtain ⟨r, hr, rfl⟩ := mem_keys hk; exact he.names r hr
    rw [aclHost_skip he hwd (slashName_noKeyword hpl hw) ht.endOfWord]
    have f1 : alt (nameWs e) ip4 (w.toList ++ t') = .fail := by
      rw [alt_fail (nameWs_fail he hwd.noBlank (slash_no_name he hsl) ht.endOfWord)]
      apply ip4_not_digit
      · obtain ⟨c, l, hc, h1, -⟩ := hid
        rw [hw, hc]
        intro d hd; simp at hd; subst hd
        cases hdd : c.isDigit with
        | false => rfl
        | true =>
          rcases h1 with h1 | rfl
          · rcases digit_cases hdd with rfl | rfl | rfl | rfl | rfl | rfl | rfl | rfl | rfl | rfl <;> revert h1 <;> decide
          · revert hdd; decide
      · rw [hw]; simp
    rw [alts_fail (bind_fail f1)]
    apply alts_ok
    have ew : w.toList ++ t' = a.toList ++ '/' :: (m ++ t') := by rw [hw]; simp
    have a1 : alt (nameSlash e) ip6 (w.toList ++ t') = .ok x ('/' :: (m ++ t')) := by
      rw [ew]; exact alt_ok (nameSlash_known he hk _)
    have a2 : slashP ('/' :: (m ++ t')) = .ok () (m ++ t') := rfl
    rw [bind_ok a1, bind_ok a2, bind_ok (intP_digits hmne hm ht.endOfWord),
      bind_ok (act_ok (mkNetwork_networkOf hv hmask hnet) _)]; rfl

theorem host_read {e : Env} (he : e.WF) {hw : List String} {h : Host} (hh : HostWords e hw h) {rest : Text}
    {more : List String} {t : Text} (hs : Starts rest (hw ++ more) t) :
    ∃ t', aclHost e t = .ok h t' ∧ After rest more t' := by
  obtain ⟨t', h1, h2⟩ := host_readE he hh hs.toE
  exact ⟨t', h1, h2.after⟩

end Acltk.AclText
