import Verif.Lemmas.IosRead
/-!
# Reading the hosts and nodes of an IOS rule
-/
namespace Acltk.IosText
open Acltk Acltk.Lookup Acltk.Peg Acltk.AclText
open Acltk.FwsmText (St Bare LineRest Aft Sta ip4_read known_word kwWord tok_self refer_end v6_valid v6Slash_word maskText_ne)

variable {rest : Text} {g : Guard}

/-- What follows a single address is no address. -/
def NoAddr (more : List String) : Prop :=
  ∀ w ∈ more.head?, (∀ c ∈ w.toList.head?, c.isDigit = false) ∨ DigitText w.toList

/-- A single address is followed by no address. -/
def Sep (hw more : List String) : Prop := ∀ w x, hw = [w] → x < 2 ^ 32 → w.toList = Dotted x → NoAddr more

theorem ip4_no {w : String} (hw : Word w) (h : (∀ c ∈ w.toList.head?, c.isDigit = false) ∨ DigitText w.toList) {t : Text}
    (ht : EndOfWord t) : ip4 (w.toList ++ t) = .fail := by
  rcases h with h | h
  · exact FwsmText.ip6_not_ip4_word hw h t
  · obtain ⟨s, u, rfl, hs⟩ := endOfWord_not_digit ht
    obtain ⟨s', u', he, hb, -⟩ := endOfWord_cons ht
    cases he
    unfold ip4
    exact bind_fail (pat_fail (ip4Re_fail h.2 hs (Or.inr (by rintro rfl; revert hb; decide))))

theorem kwFirst {l : List String} (hl : (l.all (fun k => !(k.toList.head?.map Char.isDigit).getD true)) = true) {w : String}
    (h : w ∈ l) : ∀ c ∈ w.toList.head?, c.isDigit = false := by
  intro c hc
  have := List.all_eq_true.1 hl w h
  rw [hc] at this
  simpa using this

theorem mkHost_ok {x : Nat} (hx : x < 2 ^ 32) : mkHost ⟨.v4, x⟩ = .ok (.host ⟨.v4, x⟩) := by
  simp [mkHost, ipAddress_text (a := ⟨.v4, x⟩) hx]

theorem HostW.words {e : Env} (he : e.WF) {hw : List String} {h : Host} (hh : HostW e hw h) :
    hw ≠ [] ∧ ∀ w ∈ hw, Word w := by
  have two : ∀ {a b : String}, Word a → Word b → [a, b] ≠ [] ∧ ∀ w ∈ [a, b], Word w := by
    intro a b ha hb
    refine ⟨by simp, ?_⟩
    intro w hw
    simp only [List.mem_cons, List.not_mem_nil, or_false] at hw
    rcases hw with rfl | rfl
    · exact ha
    · exact hb
  have one : ∀ {a : String}, Word a → [a] ≠ [] ∧ ∀ w ∈ [a], Word w := by
    intro a ha
    refine ⟨by simp, ?_⟩
    intro w hw
    simp only [List.mem_cons, List.not_mem_nil, or_false] at hw
    subst hw; exact ha
  cases hh with
  | network w m x q p n hx hw hq hm _ _ => exact two (dotted_word hx hw) (dotted_word hq hm)
  | wildcard w m x q hx hw hq hm _ => exact two (dotted_word hx hw) (dotted_word hq hm)
  | address w x hx hw => exact one (dotted_word hx hw)
  | host w x hx hw => exact two (word_of_decide (by decide +kernel)) (dotted_word hx hw)
  | group w h hk => exact two (word_of_decide (by decide +kernel)) (known_word he.netGroups hk)
  | any => exact one (word_of_decide (by decide +kernel))

theorem iosHost_read {e : Env} (he : e.WF) {hw : List String} {h : Host} (hh : HostW e hw h) {more : List String}
    (hmore : ∀ w ∈ more, Word w) (hsep : Sep hw more) {t : Text} (hs : Sta false rest (hw ++ more) t) :
    ∃ t', iosHost e t = .ok h t' ∧ Aft false rest more t' := by
  have hg := he.guardOk
  -- a keyword is no address
  have noip : ∀ {k : String} {t : Text}, Word k → (∀ c ∈ k.toList.head?, c.isDigit = false) → ip4 (k.toList ++ t) = .fail :=
    fun hk h => FwsmText.ip6_not_ip4_word hk h _
  -- two addresses
  have pair : ∀ {w m : String} {x q : Nat} {h : Host}, x < 2 ^ 32 → w.toList = Dotted x → q < 2 ^ 32 → m.toList = Dotted q →
      iosWildcardHost ⟨.v4, x⟩ ⟨.v4, q⟩ = .ok h → Sta false rest ([w, m] ++ more) t →
      ∃ t', iosHost e t = .ok h t' ∧ Aft false rest more t' := by
    intro w m x q h hx hw hq hm hi hs
    obtain ⟨t1, rfl, h1⟩ := hs
    obtain ⟨t2, h2, t3, rfl, h3⟩ := h1.blanks (dotted_word hq hm)
    refine ⟨t3, ?_, h3⟩
    unfold iosHost
    apply alts_ok
    rw [bind_ok (ip4_read hx hw h1.eow), bind_ok h2, bind_ok (ip4_read hq hm h3.eow)]
    exact act_ok hi _
  cases hh with
  | network w m x q p n hx hw hq hm hmt hn =>
    refine pair hx hw hq hm ?_ hs
    have := mkNetwork_networkOf (a := ⟨.v4, x⟩) (m := m.toList) hx hmt hn
    have e2 : Addr.text ⟨.v4, q⟩ = m.toList := by rw [hm, dotted_eq hq]; rfl
    unfold iosWildcardHost
    rw [e2, this]
  | wildcard w m x q hx hw hq hm hno =>
    refine pair hx hw hq hm ?_ hs
    have hta : ipAddress (Addr.text ⟨.v4, x⟩) = .ok ⟨.v4, x⟩ := ipAddress_text (a := ⟨.v4, x⟩) hx
    have htq : ipAddress (Addr.text ⟨.v4, q⟩) = .ok ⟨.v4, q⟩ := ipAddress_text (a := ⟨.v4, q⟩) hq
    have e2 : Addr.text ⟨.v4, q⟩ = m.toList := by rw [hm, dotted_eq hq]; rfl
    have := C19_network_rejects (Addr.text ⟨.v4, x⟩) m.toList (fun y hy => by
      rw [hta] at hy; cases hy; rintro ⟨p, hp⟩; exact hno p hp)
    unfold iosWildcardHost
    rw [e2, this]
    simp only [mkWildcard, hta, htq]
  | address w x hx hw =>
    obtain ⟨t1, rfl, h1⟩ := hs
    have h1 : Aft false rest more t1 := h1
    refine ⟨t1, ?_, h1⟩
    unfold iosHost
    rw [alts_fail (by
      rw [bind_ok (ip4_read hx hw h1.eow)]
      rcases aft_ws hmore h1 with ⟨-, h2⟩ | ⟨t2, h2, h3⟩
      · exact bind_fail h2
      · rw [bind_ok h2]
        cases more with
        | nil => exact h3.elim
        | cons v vl =>
          obtain ⟨t3, rfl, h4⟩ := h3
          exact bind_fail (ip4_no (hmore v (by simp)) (hsep w x rfl hx hw v (by simp)) h4.eow))]
    apply alts_ok
    rw [bind_ok (ip4_read hx hw h1.eow)]
    exact act_ok (mkHost_ok hx) _
  | host w x hx hw =>
    have hk : Word "host" := word_of_decide (by decide +kernel)
    obtain ⟨t1, rfl, h1⟩ := hs
    obtain ⟨t2, h2, t3, rfl, h3⟩ := Aft.blanks (rest := rest) (wl := more) h1 (dotted_word hx hw)
    refine ⟨t3, ?_, h3⟩
    unfold iosHost
    rw [alts_fail (bind_fail (noip hk (by decide))), alts_fail (bind_fail (noip hk (by decide)))]
    apply alts_ok
    rw [bind_ok (tok_self hg (by decide +kernel) h1.eow), bind_ok h2, bind_ok (ip4_read hx hw h3.eow)]
    exact act_ok (mkHost_ok hx) _
  | group w h hkn =>
    have hk : Word "object-group" := word_of_decide (by decide +kernel)
    obtain ⟨t1, rfl, h1⟩ := hs
    obtain ⟨t2, h2, h3⟩ := Aft.blanks (rest := rest) (wl := more) h1 (known_word he.netGroups hkn)
    obtain ⟨t', h4, h5⟩ := refer_end hg he.netGroups hkn h3
    refine ⟨t', ?_, h5⟩
    unfold iosHost
    rw [alts_fail (bind_fail (noip hk (by decide))), alts_fail (bind_fail (noip hk (by decide))),
      alts_fail (kw_other hg (noBlank_of_decide (by decide +kernel)) hk.noBlank h1.eow (by decide))]
    apply alts_ok
    rw [bind_ok (tok_self hg (by decide +kernel) h1.eow), bind_ok h2, h4]
  | any =>
    have hk : Word "any" := word_of_decide (by decide +kernel)
    obtain ⟨t1, rfl, h1⟩ := hs
    have h1 : Aft false rest more t1 := h1
    refine ⟨t1, ?_, h1⟩
    unfold iosHost
    rw [alts_fail (bind_fail (noip hk (by decide))), alts_fail (bind_fail (noip hk (by decide))),
      alts_fail (kw_other hg (noBlank_of_decide (by decide +kernel)) hk.noBlank h1.eow (by decide)),
      alts_fail (kw_other hg (noBlank_of_decide (by decide +kernel)) hk.noBlank h1.eow (by decide))]
    apply alts_ok
    rw [bind_ok (tok_self hg (by decide +kernel) h1.eow)]
    rfl

theorem Host6W.words {hw : List String} {h : Host} (hh : Host6W hw h) : hw ≠ [] ∧ ∀ w ∈ hw, Word w := by
  cases hh with
  | network w a m x p n h6 hw hm hmt hn =>
    refine ⟨by simp, ?_⟩
    intro v hv
    rw [List.mem_singleton.1 hv]; exact v6Slash_word h6 hw hm
  | host w x h6 =>
    refine ⟨by simp, ?_⟩
    intro v hv
    simp only [List.mem_cons, List.not_mem_nil, or_false] at hv
    rcases hv with rfl | rfl
    · exact word_of_decide (by decide +kernel)
    · exact v6_word h6
  | any =>
    refine ⟨by simp, ?_⟩
    intro v hv
    rw [List.mem_singleton.1 hv]; exact word_of_decide (by decide +kernel)

theorem ip6_any (t : Text) : ip6 ("any".toList ++ t) = .fail := by
  unfold ip6
  apply bind_fail
  apply pat_fail
  show ip6Re.run ('a' :: 'n' :: 'y' :: t) = []
  simp [ip6Re, Re.run, starRests, isHex, Re.chr]

theorem ip6_host (t : Text) : ip6 ("host".toList ++ t) = .fail := by
  unfold ip6
  apply bind_fail
  apply pat_fail
  show ip6Re.run ('h' :: 'o' :: 's' :: 't' :: t) = []
  simp [ip6Re, Re.run, starRests, isHex, Re.chr]

theorem ios6Host_read {e : Env} (he : e.WF) {hw : List String} {h : Host} (hh : Host6W hw h) {more : List String}
    {t : Text} (hs : Sta false rest (hw ++ more) t) :
    ∃ t', ios6Host e.guard t = .ok h t' ∧ Aft false rest more t' := by
  have hg := he.guardOk
  cases hh with
  | network w a m x p n h6 hw hm hmt hn =>
    obtain ⟨t1, rfl, h1⟩ := hs
    have h1 : Aft false rest more t1 := h1
    refine ⟨t1, ?_, h1⟩
    unfold ios6Host
    apply alts_ok
    rw [hw, List.append_assoc, List.cons_append,
      bind_ok (ip6_text h6 (t := '/' :: (m ++ t1)) (by intro c hc; simp at hc; subst hc; decide)),
      bind_ok (show slashP ('/' :: (m ++ t1)) = .ok () (m ++ t1) from rfl),
      bind_ok (intP_digits (maskText_ne hmt) hm h1.eow)]
    have := mkNetwork_networkOf (v6_valid h6) hmt hn
    exact act_ok (by simp [iosIpv6Host, this]) _
  | host w x h6 =>
    obtain ⟨t1, rfl, h1⟩ := hs
    obtain ⟨t2, h2, t3, rfl, h3⟩ := Aft.blanks (rest := rest) (wl := more) h1 (v6_word h6)
    refine ⟨t3, ?_, h3⟩
    unfold ios6Host
    rw [alts_fail (bind_fail (ip6_host _))]
    apply alts_ok
    rw [bind_ok (tok_self hg (by decide +kernel) h1.eow), bind_ok h2, bind_ok (ip6_text h6 (endOfWord_not_hex h3.eow))]
    exact act_ok (by simp [iosIpv6Host, mkHost, ipAddress_text (v6_valid h6)]) _
  | any =>
    obtain ⟨t1, rfl, h1⟩ := hs
    have h1 : Aft false rest more t1 := h1
    refine ⟨t1, ?_, h1⟩
    unfold ios6Host
    rw [alts_fail (bind_fail (ip6_any _)), alts_fail (bind_fail (tok_no hg (noBlank_of_decide (by decide +kernel)) h1.eow
      (by decide +kernel)))]
    apply alts_ok
    rw [bind_ok (tok_self hg (by decide +kernel) h1.eow)]
    rfl

/-! ## readers of hosts -/

/-- `p` reads the hosts of `H`. -/
structure Reads (e : Env) (H : List String → Host → Prop) (p : P Host) : Prop where
  words : ∀ {hw h}, H hw h → hw ≠ [] ∧ ∀ w ∈ hw, Word w
  first : ∀ {hw h}, H hw h → ∀ w wl, hw = w :: wl → w ∉ ["gt", "lt", "eq", "neq", "range"] ∧
    (w = "object-group" → ∃ x, wl = [x] ∧ Word x)
  sep : ∀ {sw s dw d}, H sw s → H dw d → ¬ Joined sw dw → ∀ more, Sep sw (dw ++ more)
  read : ∀ {hw h} {more : List String} {t rest : Text}, H hw h → (∀ w ∈ more, Word w) → Sep hw more →
    Sta false rest (hw ++ more) t → ∃ t', p t = .ok h t' ∧ Aft false rest more t'

theorem dotted_not_kw {w : String} {x : Nat} (hx : x < 2 ^ 32) (hw : w.toList = Dotted x) {l : List String}
    (hl : (l.all (fun k => !(k.toList.head?.map Char.isDigit).getD true)) = true) : w ∉ l := by
  intro h
  obtain ⟨c, u, hc, hd⟩ := dotted_head hx
  have := kwFirst hl h c (by rw [hw, hc]; rfl)
  rw [hd] at this; cases this

theorem hostW_first {e : Env} (he : e.WF) {hw : List String} {h : Host} (hh : HostW e hw h) : ∀ w wl, hw = w :: wl →
    (w ∈ ["host", "object-group", "any"] ∨ ∃ x, x < 2 ^ 32 ∧ w.toList = Dotted x) ∧
    (w = "object-group" → ∃ x, wl = [x] ∧ Word x) := by
  have no : ∀ {w : String} {x : Nat}, x < 2 ^ 32 → w.toList = Dotted x → w ≠ "object-group" := by
    intro w x hx hw hk
    exact dotted_not_kw hx hw (l := ["object-group"]) (by decide +kernel) (by simp [hk])
  intro w wl e
  cases hh with
  | network a m x q p n hx hw => cases e; exact ⟨Or.inr ⟨x, hx, hw⟩, fun hk => absurd hk (no hx hw)⟩
  | wildcard a m x q hx hw => cases e; exact ⟨Or.inr ⟨x, hx, hw⟩, fun hk => absurd hk (no hx hw)⟩
  | address a x hx hw => cases e; exact ⟨Or.inr ⟨x, hx, hw⟩, fun hk => absurd hk (no hx hw)⟩
  | host a x hx hw => cases e; exact ⟨Or.inl (by simp), fun hk => absurd hk (by decide)⟩
  | group a h hk => cases e; exact ⟨Or.inl (by simp), fun _ => ⟨a, rfl, known_word he.netGroups hk⟩⟩
  | any => cases e; exact ⟨Or.inl (by simp), fun hk => absurd hk (by decide)⟩

theorem reads_ios {e : Env} (he : e.WF) : Reads e (HostW e) (iosHost e) where
  words := HostW.words he
  first := by
    intro hw h hh w wl hwl
    obtain ⟨h1, h2⟩ := hostW_first he hh w wl hwl
    refine ⟨?_, h2⟩
    rcases h1 with h1 | ⟨x, hx, hw⟩
    · exact (by decide +kernel : ∀ w ∈ ["host", "object-group", "any"], w ∉ ["gt", "lt", "eq", "neq", "range"]) w h1
    · exact dotted_not_kw hx hw (by decide +kernel)
  sep := by
    intro sw s dw d hs hd hj more w x he' hx hw v hv
    cases dw with
    | nil => exact absurd rfl (hd.words he).1
    | cons b l =>
      simp at hv; subst hv
      rcases (hostW_first he hd b l rfl).1 with h1 | ⟨y, hy, hb⟩
      · exact Or.inl (kwFirst (l := ["host", "object-group", "any"]) (by decide +kernel) h1)
      · exact absurd ⟨⟨w, x, he', hx, hw⟩, b, l, y, rfl, hy, hb⟩ hj
  read := fun hh hm hsep hs => iosHost_read he hh hm hsep hs

theorem dotted_no_slash {w : String} {x : Nat} (hx : x < 2 ^ 32) (hw : w.toList = Dotted x) : '/' ∉ w.toList := by
  rw [hw, dotted_eq hx]; exact fmtV4_no x (by decide) (by decide)

theorem reads_ios6 {e : Env} (he : e.WF) : Reads e Host6W (ios6Host e.guard) where
  words := Host6W.words
  first := by
    intro hw h hh w wl hwl
    cases hh with
    | network a b m x p n h6 hw =>
      cases hwl
      have : '/' ∈ w.toList := by rw [hw]; simp
      refine ⟨?_, fun hk => absurd hk (FwsmText.slash_not_kw this (by decide))⟩
      intro hm
      simp only [List.mem_cons, List.not_mem_nil, or_false] at hm
      rcases hm with h | h | h | h | h <;> exact FwsmText.slash_not_kw this (by decide) h
    | host a x h6 => cases hwl; exact ⟨by decide, fun hk => absurd hk (by decide)⟩
    | any => cases hwl; exact ⟨by decide, fun hk => absurd hk (by decide)⟩
  sep := by
    intro sw s dw d hs hd hj more w x he' hx hw
    cases hs with
    | network a b m y p n h6 ha =>
      cases he'
      exact absurd (by rw [ha]; simp) (dotted_no_slash hx hw)
    | host a y h6 => cases he'
    | any =>
      cases he'
      exact absurd (List.mem_singleton.2 rfl) (dotted_not_kw hx hw (l := ["any"]) (by decide +kernel))
  read := fun hh _ _ hs => ios6Host_read he hh hs

theorem reads_acl {e : Env} (he : e.WF) : Reads e (HostWords e) (aclHost e) where
  words := HostWords.words he
  first := fun hh w wl hwl => hh.first he w wl hwl
  sep := by
    intro sw s dw d hs hd hj more w x he' hx hw
    have nokw : ∀ {k : String}, k ∈ ["any", "any4", "any6"] → k = w → False := by
      rintro k hk rfl
      exact dotted_not_kw hx hw (l := ["any", "any4", "any6"]) (by decide +kernel) hk
    cases hs with
    | any => cases he'; exact (nokw (k := "any") (by decide) rfl).elim
    | any4 => cases he'; exact (nokw (k := "any4") (by decide) rfl).elim
    | any6 => cases he'; exact (nokw (k := "any6") (by decide) rfl).elim
    | host k a b _ _ => cases he'
    | interface a _ => cases he'
    | object a h _ => cases he'
    | group a h _ => cases he'
    | masked a m y q p n _ _ _ _ _ _ => cases he'
    | maskedName a m y q p n _ _ _ _ _ _ _ => cases he'
    | slash a b m y p n h6 ha =>
      cases he'
      exact absurd (by rw [ha]; simp) (dotted_no_slash hx hw)
    | slashName a b m y p n _ _ _ ha =>
      cases he'
      exact absurd (by rw [ha]; simp) (dotted_no_slash hx hw)
  read := by
    intro hw h more t rest hh _ _ hs
    obtain ⟨t', h1, h2⟩ := host_readE he hh (sta_toE hs)
    exact ⟨t', h1, aft_ofE h2⟩

/-- A node with this reader of hosts. -/
def nodeOf (e : Env) (p : P Host) : P PNode := do
  let h ← p
  let q ← optPort e
  act (mkNode h q)

theorem node_nodeOf (e : Env) : node e = nodeOf e (aclHost e) := rfl
theorem iosNode_nodeOf (e : Env) : iosNode e = nodeOf e (iosHost e) := rfl
theorem ios6Node_nodeOf (e : Env) : ios6Node e = nodeOf e (ios6Host e.guard) := rfl

theorem optPort_none {e : Env} (he : e.WF) {more : List String} (hmore : ∀ w ∈ more, Word w) (hno : NoPort e more) {t : Text}
    (h : Aft false rest more t) : optPort e t = .ok none t := by
  apply opt_fail
  cases more with
  | nil => exact bind_fail h.noWs
  | cons w wl =>
    obtain ⟨t2, h3, h4⟩ := h.blanks (hmore w (by simp))
    rw [bind_ok h3]
    exact aclPort_failE he (hmore w (by simp)) hno (sta_toE h4)

theorem portWords_noAddr {e : Env} {pw : List String} {p : PortVal} (h : PortWords e pw p) (more : List String) :
    NoAddr (pw ++ more) := by
  intro w hw
  left
  cases h with
  | op o a ho _ =>
    simp at hw; subst hw
    exact kwFirst (l := ["gt", "lt", "eq", "neq"]) (by decide +kernel) ho
  | range a b _ _ _ => simp at hw; subst hw; decide
  | group a o _ _ => simp at hw; subst hw; decide

theorem nodeOf_read {e : Env} (he : e.WF) {H : List String → Host → Prop} {p : P Host} (hp : Reads e H p) {nw : List String}
    {n : PNode} (h : NodeW e H nw n) {more : List String} (hmore : ∀ w ∈ more, Word w) (hno : n.port = none → NoPort e more)
    (hsep : n.port = none → Sep nw more) {t : Text} (hs : Sta false rest (nw ++ more) t) :
    ∃ t', nodeOf e p t = .ok n t' ∧ Aft false rest more t' := by
  cases h with
  | host hw h hh =>
    obtain ⟨t1, h1, h2⟩ := hp.read hh hmore (hsep rfl) hs
    refine ⟨t1, ?_, h2⟩
    unfold nodeOf
    rw [bind_ok h1, bind_ok (optPort_none he hmore (hno rfl) h2)]
    rfl
  | port hw pw h q hh hq =>
    rw [List.append_assoc] at hs
    obtain ⟨pne, pwd⟩ := hq.words he
    have hall : ∀ w ∈ pw ++ more, Word w := by
      intro w hw
      rcases List.mem_append.1 hw with hw | hw
      · exact pwd w hw
      · exact hmore w hw
    obtain ⟨t1, h1, h2⟩ := hp.read hh hall (fun _ _ _ _ _ => portWords_noAddr hq more) hs
    obtain ⟨w, pl, rfl⟩ : ∃ w pl, pw = w :: pl := by
      cases pw with
      | nil => exact absurd rfl pne
      | cons w pl => exact ⟨w, pl, rfl⟩
    obtain ⟨t2, h3, h4⟩ := Aft.blanks h2 (pwd w (by simp))
    obtain ⟨t', h5, h6⟩ := port_cond_readE he hq (more := more) (sta_toE h4)
    refine ⟨t', ?_, aft_ofE h6⟩
    unfold nodeOf
    have h7 : optPort e t1 = .ok (some q) t' := opt_ok (by rw [bind_ok h3, h5])
    rw [bind_ok h1, bind_ok h7]
    cases hq <;> rfl

theorem NodeW.words {e : Env} (he : e.WF) {H : List String → Host → Prop} {p : P Host} (hp : Reads e H p) {nw : List String}
    {n : PNode} (h : NodeW e H nw n) : nw ≠ [] ∧ ∀ w ∈ nw, Word w := by
  cases h with
  | host hw h hh => exact hp.words hh
  | port hw pw h q hh hq =>
    obtain ⟨a, b⟩ := hp.words hh
    refine ⟨by simp [a], ?_⟩
    intro w hw'
    rcases List.mem_append.1 hw' with hw' | hw'
    · exact b w hw'
    · exact (hq.words he).2 w hw'

theorem NodeW.first {e : Env} {H : List String → Host → Prop} {p : P Host} (hp : Reads e H p) {nw : List String}
    {n : PNode} (h : NodeW e H nw n) : ∀ w wl, nw = w :: wl → w ∉ ["gt", "lt", "eq", "neq", "range"] ∧
      (w = "object-group" → ∃ x wl', wl = x :: wl' ∧ Word x) := by
  intro w wl hwl
  cases h with
  | host hw h hh =>
    obtain ⟨a, b⟩ := hp.first hh w wl hwl
    exact ⟨a, fun hk => by obtain ⟨x, rfl, hx⟩ := b hk; exact ⟨x, [], rfl, hx⟩⟩
  | port hw pw h q hh hq =>
    cases hw with
    | nil => exact absurd rfl (hp.words hh).1
    | cons a l =>
      rw [List.cons_append] at hwl
      cases hwl
      obtain ⟨c, d⟩ := hp.first hh w l rfl
      exact ⟨c, fun hk => by obtain ⟨x, rfl, hx⟩ := d hk; exact ⟨x, pw, rfl, hx⟩⟩

theorem NodeW.noPort {e : Env} {H : List String → Host → Prop} {p : P Host} (hp : Reads e H p) {s : PNode}
    {dw : List String} {d : PNode} (hd : NodeW e H dw d) (hne : dw ≠ [])
    (ha : ¬ Ambiguous e s dw) (hs : s.port = none) (more : List String) : NoPort e (dw ++ more) := by
  cases dw with
  | nil => exact absurd rfl hne
  | cons w wl =>
    obtain ⟨a, b⟩ := hd.first hp w wl rfl
    refine ⟨a, fun hw => ?_⟩
    obtain ⟨x, wl', rfl, hx⟩ := b hw
    refine ⟨x, wl' ++ more, rfl, hx, ?_, ?_⟩
    · intro v hv; exact ha ⟨hs, x, wl', by rw [hw], Or.inl ⟨v, hv⟩⟩
    · intro v hv; exact ha ⟨hs, x, wl', by rw [hw], Or.inr ⟨v, hv⟩⟩

theorem NodeW.sep {e : Env} {H : List String → Host → Prop} {p : P Host} (hp : Reads e H p) {sw dw : List String}
    {s d : PNode} (hs : NodeW e H sw s) (hd : NodeW e H dw d) (hj : ¬ Joined sw dw) (hn : s.port = none)
    (more : List String) : Sep sw (dw ++ more) := by
  cases hs with
  | port hw pw h q hh hq => cases hn
  | host hw h hh =>
    cases hd with
    | host dw' d' hd' => exact hp.sep hh hd' hj more
    | port dw' pw d' q hd' hq =>
      rw [List.append_assoc]
      refine hp.sep hh hd' ?_ (pw ++ more)
      rintro ⟨h1, v, vl, y, rfl, h2⟩
      exact hj ⟨h1, v, vl ++ pw, y, rfl, h2⟩

end Acltk.IosText
