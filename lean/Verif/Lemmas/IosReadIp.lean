import Verif.Lemmas.IosReadCmd
import Verif.Lemmas.IosReadIp6
import Verif.Lemmas.IosReadNamed
import Verif.Lemmas.IosReadGroup
import Verif.Lemmas.IosReadList
/-!
# Reading the commands behind `ip` and `ipv6` as written
-/
namespace Acltk.IosText
open Acltk Acltk.Lookup Acltk.Peg Acltk.AclText
open Acltk.FwsmText (St Bare LineRest Aft Sta ip4_read kwWord tok_self toeol_read nl_lf nl_ok word_no_lf blanks_no_lf
  sta_of_line sta_of_bare kw_step kw_no ip6_not_ip4_word NoSp sp_fail sp_cons Indented Skip skip_word tok_char skip_char
  ws_line lineEnd_eow interfaceRef identifier_not_ip4)

variable {tr : Bool} {rest : Text} {g : Guard}

/-! ## routes -/

theorem eow_char {t : Text} (h : EndOfWord t) : ∃ c u, t = c :: u ∧ isBlank c = true := by
  obtain ⟨v, rfl | rfl | rfl | rfl⟩ := h
  · exact ⟨' ', v, rfl, by decide⟩
  · exact ⟨'\t', v, rfl, by decide⟩
  · exact ⟨'\n', v, rfl, by decide⟩
  · exact ⟨'\r', _, rfl, by decide⟩

theorem blank_not_alnum {c : Char} (h : isBlank c = true) : c.isAlphanum = false := by
  simp only [isBlank, Bool.or_eq_true, beq_iff_eq] at h
  rcases h with ((h | h) | h) | h <;> (subst h; decide)

/-- Interface names without blanks. -/
def IfacesOk (s : St) : Prop := ∀ p ∈ s.ifaces, UrlWord p.1

theorem ifaceIds {s : St} (hg : GuardOk s.env.guard) (hi : IfacesOk s) {w : String} {c : Char} (hc : isBlank c = true) (u : Text) :
    (w ∈ keys s.ifaces → internalIds s.env.guard (keys s.ifaces) (w.toList ++ c :: u) = some (w, c :: u)) ∧
    (w ∉ keys s.ifaces → ∀ n r, internalIds s.env.guard (keys s.ifaces) (w.toList ++ c :: u) = some (n, r) →
      n ∈ keys s.ifaces ∧ ∃ d v, r = d :: (v ++ c :: u) ∧ n.toList ++ d :: v = w.toList) :=
  internalIds_word (guard := s.env.guard) (stop := isBlank) (names := keys s.ifaces) (w := w) (s := c) (rest := u)
    (fun n d t hd => hg.passes n d t (blank_not_alnum hd))
    (fun n hn d hd => by
      have : ∃ p ∈ s.ifaces, p.1 = n := by simpa [keys] using hn
      obtain ⟨p, hp, rfl⟩ := this
      exact (hi p hp).word.noBlank d hd) hc

theorem known_keys {s : St} {w : String} : w ∈ keys s.ifaces ↔ ∃ i, Known s.ifaces w i := by
  rw [keys_eq, ← dGet_isSome_iff, Option.isSome_iff_exists]

theorem gateway_read {s : St} (hg : GuardOk s.env.guard) (hi : IfacesOk s) {w : String} {gw : Gateway} (h : GatewayW s w gw)
    {t : Text} (ht : EndOfWord t) : routeGateway s (w.toList ++ t) = .ok gw t := by
  unfold routeGateway
  cases h with
  | address x hx hw =>
    apply alt_ok
    rw [bind_ok (ip4_read hx hw ht)]
    rfl
  | interface i hk hd =>
    have hm : w ∈ keys s.ifaces := known_keys.2 ⟨i, hk⟩
    have hu : ∃ p ∈ s.ifaces, p.1 = w := by simpa [keys] using hm
    obtain ⟨p, hp, rfl⟩ := hu
    refine (alt_fail (bind_fail (ip6_not_ip4_word (hi p hp).word hd t))).trans ?_
    obtain ⟨c, u, rfl, hc⟩ := eow_char ht
    have := (ifaceIds hg hi (w := p.1) hc u).1 hm
    have hr : interfaceRef s (p.1.toList ++ c :: u) = .ok i (c :: u) := by
      unfold interfaceRef
      have hk' : dGet s.ifaces p.1 = some i := hk
      simp only [this, hk']
    exact bind_ok hr

/-- Nothing known by this name: not read, or a part of the word is left. -/
theorem gateway_no {s : St} (hg : GuardOk s.env.guard) (hi : IfacesOk s) {w : String} (hw : Word w)
    (hd : ∀ c ∈ w.toList.head?, c.isDigit = false) (hk : ∀ i, ¬ Known s.ifaces w i) {t : Text} (ht : EndOfWord t) :
    routeGateway s (w.toList ++ t) = .fail ∨
    ∃ gw c r, routeGateway s (w.toList ++ t) = .ok gw (c :: r) ∧ isBlank c = false := by
  have e1 : routeGateway s (w.toList ++ t) = (interfaceRef s >>= fun i => pure (Gateway.iface i)) (w.toList ++ t) :=
    alt_fail (bind_fail (ip6_not_ip4_word hw hd t))
  rw [e1]
  obtain ⟨c, u, rfl, hc⟩ := eow_char ht
  cases hx : internalIds s.env.guard (keys s.ifaces) (w.toList ++ c :: u) with
  | none =>
    left
    apply bind_fail
    unfold interfaceRef
    simp only [hx]
  | some p =>
    right
    obtain ⟨n, r⟩ := p
    have hn : w ∉ keys s.ifaces := fun h => by obtain ⟨i, h⟩ := known_keys.1 h; exact hk i h
    obtain ⟨hm, d, v, rfl, hv⟩ := (ifaceIds hg hi (w := w) hc u).2 hn n r hx
    obtain ⟨i, hki⟩ := known_keys.1 hm
    refine ⟨.iface i, d, v ++ c :: u, ?_, ?_⟩
    · have hki' : dGet s.ifaces n = some i := hki
      refine bind_ok (a := i) (r := d :: (v ++ c :: u)) ?_
      unfold interfaceRef
      simp only [hx, hki']
    · exact hw.noBlank d (by rw [← hv]; simp)

theorem routeTo_start {s : St} {w m : String} {x q : Nat} (hx : x < 2 ^ 32) (hw : w.toList = Dotted x) (hq : q < 2 ^ 32)
    (hm : m.toList = Dotted q) {b b' : List Char} (h1 : b ≠ []) (h2 : Blanks b) (h3 : b' ≠ []) (h4 : Blanks b') {t : Text}
    (ht : ∀ c ∈ t.head?, c ≠ ' ' ∧ c ≠ '\t') :
    ipRoute s (w.toList ++ (b ++ (m.toList ++ (b' ++ t)))) = (do
      let gw ← routeGateway s
      nl
      let n ← act (strictNetwork ⟨.v4, x⟩ ⟨.v4, q⟩)
      pure (.route ⟨n, gw⟩) : P Item) t := by
  have ww := dotted_word hx hw
  have wm := dotted_word hq hm
  unfold ipRoute
  have hp : tok s.env.guard "profile" (w.toList ++ (b ++ (m.toList ++ (b' ++ t)))) = .fail := by
    obtain ⟨c, l, hc⟩ : ∃ c l, w.toList = c :: l := List.exists_cons_of_ne_nil ww.1
    rw [hc]
    apply tok_char
    · intro d hd
      simp at hd; subst hd
      rintro rfl
      obtain ⟨d, t', h1, h2⟩ := dotted_head hx
      rw [← hw, hc] at h1
      simp at h1
      rw [← h1.1] at h2
      revert h2; decide
    · decide
  refine (alt_fail (bind_fail hp)).trans ?_
  unfold routeTo
  rw [bind_ok (ip4_read hx hw (blanks_end h1 h2)), bind_ok (ws_ok h1 h2 (word_head wm _)),
    bind_ok (ip4_read hq hm (blanks_end h3 h4)), bind_ok (ws_ok h3 h4 ht)]

theorem nl_blank_no {c : Char} {t : Text} (h : c ≠ '\n') (h' : c ≠ '\r') : nl (c :: t) = .fail := by
  unfold nl
  split
  · rename_i heq; simp at heq; exact absurd heq.1 h
  · rename_i heq; simp at heq; exact absurd heq.1 h'
  · rfl

/-! ## the alternatives behind `ip` -/

theorem ip_enter {s : St} (hg : GuardOk s.env.guard) {b : List Char} (h1 : b ≠ []) (h2 : Blanks b) {t : Text}
    (ht : ∀ c ∈ t.head?, c ≠ ' ' ∧ c ≠ '\t') : ip s ("ip".toList ++ (b ++ t)) =
      alts [ipLists s.env, ipDomain s.env.guard, ipRoutes s, ipRest s.env.guard] t := by
  unfold ip
  rw [bind_ok (tok_self hg (by decide) (blanks_end h1 h2)), bind_ok (ws_ok h1 h2 ht)]

theorem ipLists_no {e : Env} {t : Text} (h : tok e.guard "access-list" t = .fail) : ipLists e t = .fail := bind_fail h

theorem ipDomain_no {t : Text} (h : tok g "domain name" t = .fail) : ipDomain g t = .fail := bind_fail h

theorem ipRoutes_no {s : St} {t : Text} (h : tok s.env.guard "route" t = .fail) : ipRoutes s t = .fail := bind_fail h

theorem ipRest_ok {t r : Text} (h : ignoredOf g ipIgnored t = .ok () r) : ipRest g t = .ok (.base .nothing) r := bind_ok h

/-- What the route command does with the words behind `ip route`. -/
theorem ip_route {s : St} (hg : GuardOk s.env.guard) {w m v : String} {x q : Nat} (hx : x < 2 ^ 32) (hw : w.toList = Dotted x)
    (hq : q < 2 ^ 32) (hm : m.toList = Dotted q) (hv : Word v) {h : List Char} (hs : Spaced ["ip", "route", w, m, v] h) (t : Text) :
    ∃ y, h ++ t = "ip".toList ++ y ∧ EndOfWord y ∧
    ((∀ i r, (do
      let gw ← routeGateway s
      nl
      let n ← act (strictNetwork ⟨.v4, x⟩ ⟨.v4, q⟩)
      pure (.route ⟨n, gw⟩) : P Item) (v.toList ++ t) = .ok i r → ip s (h ++ t) = .ok i r) ∧
    ((do
      let gw ← routeGateway s
      nl
      let n ← act (strictNetwork ⟨.v4, x⟩ ⟨.v4, q⟩)
      pure (.route ⟨n, gw⟩) : P Item) (v.toList ++ t) = .fail →
      ∀ u rest, '\n' ∉ u → t = u ++ '\n' :: rest → ip s (h ++ t) = .ok (.base .nothing) rest)) := by
  obtain ⟨b1, h1, n1, bl1, hs1, rfl⟩ := spaced_cons hs
  obtain ⟨b2, h2, n2, bl2, hs2, rfl⟩ := spaced_cons hs1
  obtain ⟨b3, h3, n3, bl3, hs3, rfl⟩ := spaced_cons hs2
  obtain ⟨b4, h4, n4, bl4, hs4, rfl⟩ := spaced_cons hs3
  have := spaced_one hs4
  subst this
  have ww := dotted_word hx hw
  have wr : Word "route" := kwWord (by decide)
  simp only [List.append_assoc]
  refine ⟨_, rfl, blanks_end n1 bl1, ?_⟩
  rw [ip_enter hg n1 bl1 (word_head wr _),
    alts_fail (ipLists_no (noTok_fail hg (w := "route") (by decide +kernel) (blanks_end n2 bl2))),
    alts_fail (ipDomain_no (noTok_fail hg (w := "route") (by decide +kernel) (blanks_end n2 bl2)))]
  have hst := routeTo_start (s := s) hx hw hq hm n3 bl3 n4 bl4 (t := v.toList ++ t) (word_head hv t)
  have hrt : ipRoutes s ("route".toList ++ (b2 ++ (w.toList ++ (b3 ++ (m.toList ++ (b4 ++ (v.toList ++ t))))))) =
      ipRoute s (w.toList ++ (b3 ++ (m.toList ++ (b4 ++ (v.toList ++ t))))) := by
    unfold ipRoutes
    rw [bind_ok (tok_self hg (by decide) (blanks_end n2 bl2)), bind_ok (ws_ok n2 bl2 (word_head ww _))]
  rw [hst] at hrt
  constructor
  · intro i r h
    exact alts_ok (hrt.trans h)
  · intro h u rest hu et
    rw [alts_fail (hrt.trans h)]
    refine alts_ok (ipRest_ok (ignoredOf_find (k := "route") (f := .eol) ?_ (tok_self hg (by decide) (blanks_end n2 bl2)) ?_))
    · exact firstOf_split hg (w := "route") (by decide +kernel) (blanks_end n2 bl2)
    · have e : b2 ++ (w.toList ++ (b3 ++ (m.toList ++ (b4 ++ (v.toList ++ t))))) =
          (b2 ++ (w.toList ++ (b3 ++ (m.toList ++ (b4 ++ (v.toList ++ u)))))) ++ '\n' :: rest := by
        rw [et]; simp only [List.append_assoc]
      rw [e]
      apply tailEol_read
      simp only [List.mem_append, not_or]
      exact ⟨blanks_no_lf bl2, word_no_lf ww, blanks_no_lf bl3, word_no_lf (dotted_word hq hm), blanks_no_lf bl4,
        word_no_lf hv, hu⟩

theorem gateway_word {s : St} (hi : IfacesOk s) {w : String} {gw : Gateway} (h : GatewayW s w gw) : Word w := by
  cases h with
  | address x hx hw => exact dotted_word hx hw
  | interface i hk hd =>
    have hm : w ∈ keys s.ifaces := known_keys.2 ⟨i, hk⟩
    have hu : ∃ p ∈ s.ifaces, p.1 = w := by simpa [keys] using hm
    obtain ⟨p, hp, rfl⟩ := hu
    exact (hi p hp).word

theorem strictNetwork_ok {x q p : Nat} {m : List Char} {n : Net} (hx : x < 2 ^ 32) (hq : q < 2 ^ 32) (hm : m = Dotted q)
    (hmt : MaskText .v4 m p) (hn : NetworkOf ⟨.v4, x⟩ p n) (he : n.addr = x) :
    strictNetwork ⟨.v4, x⟩ ⟨.v4, q⟩ = .ok n := by
  have h := mkNetwork_networkOf (a := ⟨.v4, x⟩) (m := m) hx hmt hn
  have e2 : Addr.text ⟨.v4, q⟩ = m := by rw [hm, dotted_eq hq]; rfl
  unfold strictNetwork
  rw [e2, h]
  simp [he]

theorem route_read {s : St} (hg : GuardOk s.env.guard) (hi : IfacesOk s) {w m v : String} {x q p : Nat} {n : Net} {gw : Gateway}
    {l : List Char} (hx : x < 2 ^ 32) (hw : w.toList = Dotted x) (hq : q < 2 ^ 32) (hm : m.toList = Dotted q)
    (hmt : MaskText .v4 m.toList p) (hn : NetworkOf ⟨.v4, x⟩ p n) (he : n.addr = x) (hgw : GatewayW s v gw)
    (hl : Bare ["ip", "route", w, m, v] l) (rest : Text) :
    ip s (l ++ rest) = .ok (.route ⟨n, gw⟩) rest := by
  obtain ⟨h, k, hs, hk, rfl⟩ := hl
  obtain ⟨-, -, -, hr, -⟩ := ip_route hg hx hw hq hm (gateway_word hi hgw) hs (k ++ rest)
  rw [List.append_assoc]
  apply hr
  rw [bind_ok (gateway_read hg hi hgw (lineEnd_eow hk rest)), bind_ok (nl_ok hk),
    bind_ok (act_ok (strictNetwork_ok hx hq hm hmt hn he) _)]
  rfl

theorem routeMore_read {s : St} (hg : GuardOk s.env.guard) (hi : IfacesOk s) {w m v : String} {x q : Nat} {gw : Gateway}
    {h u : List Char} {c : Char} (hx : x < 2 ^ 32) (hw : w.toList = Dotted x) (hq : q < 2 ^ 32) (hm : m.toList = Dotted q)
    (hgw : GatewayW s v gw) (hs : Spaced ["ip", "route", w, m, v] h) (hc : c = ' ' ∨ c = '\t') (hu : '\n' ∉ u) (rest : Text) :
    ip s (h ++ (c :: (u ++ '\n' :: rest))) = .ok (.base .nothing) rest := by
  obtain ⟨-, -, -, -, hr⟩ := ip_route hg hx hw hq hm (gateway_word hi hgw) hs (c :: (u ++ '\n' :: rest))
  refine hr ?_ (c :: u) rest ?_ rfl
  · have hw : EndOfWord (c :: (u ++ '\n' :: rest)) := by
      rcases hc with rfl | rfl
      · exact ⟨_, Or.inl rfl⟩
      · exact ⟨_, Or.inr (Or.inl rfl)⟩
    rw [bind_ok (gateway_read hg hi hgw hw)]
    exact bind_fail (nl_blank_no (by rcases hc with rfl | rfl <;> decide) (by rcases hc with rfl | rfl <;> decide))
  · simp only [List.mem_cons, not_or]
    exact ⟨by rcases hc with rfl | rfl <;> decide, hu⟩

theorem routeUnknown_read {s : St} (hg : GuardOk s.env.guard) (hi : IfacesOk s) {w m v : String} {x q : Nat}
    {h u : List Char} (hx : x < 2 ^ 32) (hw : w.toList = Dotted x) (hq : q < 2 ^ 32) (hm : m.toList = Dotted q)
    (hv : Word v) (hd : ∀ c ∈ v.toList.head?, c.isDigit = false) (hk : ∀ i, ¬ Known s.ifaces v i)
    (hs : Spaced ["ip", "route", w, m, v] h) (hu : LineRest u) (rest : Text) :
    ip s (h ++ (u ++ '\n' :: rest)) = .ok (.base .nothing) rest := by
  obtain ⟨-, -, -, -, hr⟩ := ip_route hg hx hw hq hm hv hs (u ++ '\n' :: rest)
  refine hr ?_ u rest hu.1 rfl
  have ht : EndOfWord (u ++ '\n' :: rest) := by
    have := hu.eow rest
    simpa using this
  rcases gateway_no hg hi hv hd hk ht with h | ⟨gw, c, r, h1, h2⟩
  · exact bind_fail h
  · rw [bind_ok h1]
    exact bind_fail (nl_blank_no (by rintro rfl; revert h2; decide) (by rintro rfl; revert h2; decide))

/-! ## lists, domains and ignored commands behind `ip` -/

theorem ipList_read {s : St} (hg : GuardOk s.env.guard) {n k : String} {l t : List Char} (hk : Word k)
    (hl : Bare ["ip", "access-list", k, n] l) {Q : List IRule → Prop}
    (h : ∀ u, Sta false (t ++ rest) [k, n] u → ∃ rs, Q rs ∧ ipAccessList s.env u = .ok rs rest) :
    ∃ rs, Q rs ∧ ip s (l ++ (t ++ rest)) = .ok (.rules rs) rest := by
  have hs := sta_of_bare (rest := t ++ rest) hl
  obtain ⟨t1, s1, f1⟩ := kw_step hg hs (by decide) (kwWord (by decide))
  obtain ⟨t2, s2, f2⟩ := kw_step hg s1 (by decide) hk
  obtain ⟨rs, h1, h2⟩ := h _ s2
  refine ⟨rs, h1, ?_⟩
  unfold ip
  refine (f1 _).trans ?_
  apply alts_ok
  unfold ipLists
  refine (f2 _).trans ?_
  exact bind_ok h2

theorem ipForms_found : ∀ kf ∈ ipForms, noTok kf.1 "access-list" = true ∧ noTok kf.1 "domain name" = true ∧
    noTok kf.1 "route" = true ∧ firstOf kf.1 ipIgnored = some kf := by decide +kernel

theorem ipForms_words : ∀ kf ∈ ipForms, (!kf.1.toList.isEmpty && kf.1.toList.all (fun c => !isBlank c)) = true := by
  decide +kernel

theorem ipIgnored_read {s : St} (hg : GuardOk s.env.guard) {k : String} {f : Tail} {b u : List Char} (hk : (k, f) ∈ ipForms)
    (h1 : b ≠ []) (h2 : Blanks b) (hu : TailText f u) (hr : NoSp rest) :
    ip s ("ip".toList ++ (b ++ (k.toList ++ (u ++ rest)))) = .ok (.base .nothing) rest := by
  obtain ⟨n1, n2, n3, n4⟩ := ipForms_found _ hk
  have wk : Word k := word_of_decide (ipForms_words _ hk)
  have ht := tail_eow hu rest
  rw [ip_enter hg h1 h2 (word_head wk _), alts_fail (ipLists_no (noTok_fail hg n1 ht)),
    alts_fail (ipDomain_no (noTok_fail hg n2 ht)), alts_fail (ipRoutes_no (noTok_fail hg n3 ht))]
  have hb := ipForms_words _ hk
  simp only [Bool.and_eq_true] at hb
  exact alts_ok (ipRest_ok (ignoredOf_find (firstOf_split hg n4 ht) (tok_self hg hb.2 ht) (tail_read hu hr)))

/-- No token here: the texts differ within the first letters. -/
theorem tok_prefix {k : String} {t : Text} (h : k.toList.isPrefixOf t = false) : tok g k t = .fail := by
  unfold tok token
  rw [h]
  rfl

theorem ipDomain_read {s : St} (hg : GuardOk s.env.guard) (hy : ∀ n t, (∃ d ∈ n.toList, d.isAlphanum = false) → s.env.guard n t = true)
    {w : String} {b b' : List Char} (hw : IdWord w) (h1 : b ≠ []) (h2 : Blanks b) (h3 : b' ≠ []) (h4 : Blanks b') {t : Text}
    (ht : EndOfWord t) :
    ip s ("ip".toList ++ (b ++ ("domain name".toList ++ (b' ++ (w.toList ++ t))))) = .ok (.base (.domain w)) t := by
  have e : "domain name".toList ++ (b' ++ (w.toList ++ t)) = 'd' :: ("omain name".toList ++ (b' ++ (w.toList ++ t))) := by simp
  rw [ip_enter hg h1 h2 (by rw [e]; intro c hc; simp at hc; subst hc; decide),
    alts_fail (ipLists_no (by rw [e]; exact tok_char (by decide) (by decide)))]
  apply alts_ok
  unfold ipDomain
  rw [bind_ok (tok_symbol hy (by decide) _), bind_ok (ws_ok h3 h4 (word_head hw.word _)), bind_ok (objName_read hw ht)]
  simp [pure]

theorem ipDomainIgnored_read {s : St} (hg : GuardOk s.env.guard) {b u : List Char} (h1 : b ≠ []) (h2 : Blanks b) (hu : '\n' ∉ u)
    (hh : ∀ c ∈ u.head?, c.isAlphanum = false) (hn : ¬ " name".toList <+: u) (rest : Text) :
    ip s ("ip".toList ++ (b ++ ("domain".toList ++ (u ++ '\n' :: rest)))) = .ok (.base .nothing) rest := by
  have e : "domain".toList ++ (u ++ '\n' :: rest) = 'd' :: ("omain".toList ++ (u ++ '\n' :: rest)) := by simp
  have td : tok s.env.guard "domain" ("domain".toList ++ (u ++ '\n' :: rest)) = .ok "domain" (u ++ '\n' :: rest) := by
    obtain ⟨c, v, hc, hcv⟩ : ∃ c v, u ++ '\n' :: rest = c :: v ∧ c.isAlphanum = false := by
      cases u with
      | nil => exact ⟨_, _, rfl, by decide⟩
      | cons c v => exact ⟨c, v ++ '\n' :: rest, rfl, hh c (by simp)⟩
    rw [hc]
    unfold tok token
    rw [if_pos (List.isPrefixOf_iff_prefix.2 (List.prefix_append _ _))]
    simp [hg.passes "domain" c v hcv]
  have tn : tok s.env.guard "domain name" ("domain".toList ++ (u ++ '\n' :: rest)) = .fail := by
    apply tok_prefix
    rw [Bool.eq_false_iff]
    intro hp
    rw [List.isPrefixOf_iff_prefix] at hp
    have hp' : " name".toList <+: u ++ '\n' :: rest := by
      obtain ⟨z, hz⟩ := hp
      refine ⟨z, ?_⟩
      rw [show "domain name".toList = "domain".toList ++ " name".toList from by decide, List.append_assoc] at hz
      exact List.append_cancel_left hz
    rcases List.prefix_or_prefix_of_prefix hp' (List.prefix_append u _) with h | h
    · exact hn h
    · -- the line ends within ` name`
      obtain ⟨a, ha⟩ := h
      cases a with
      | nil => rw [List.append_nil] at ha; exact hn ⟨[], by rw [List.append_nil, ha]⟩
      | cons c a =>
        obtain ⟨z, hz⟩ := hp'
        rw [← ha, List.append_assoc] at hz
        have := List.append_cancel_left hz
        simp at this
        have : '\n' ∈ " name".toList := by rw [← ha, this.1]; simp
        revert this; decide
  rw [ip_enter hg h1 h2 (by rw [e]; intro c hc; simp at hc; subst hc; decide),
    alts_fail (ipLists_no (by rw [e]; exact tok_char (by decide) (by decide))), alts_fail (ipDomain_no tn),
    alts_fail (ipRoutes_no (by rw [e]; exact tok_char (by decide) (by decide)))]
  refine alts_ok (ipRest_ok (ignoredOf_find (k := "domain") (f := .eol) ⟨ipIgnored.take 3, ipIgnored.drop 4, rfl, ?_⟩ td
    (tailEol_read hu rest)))
  intro kt hkt
  rw [e]
  have := (by decide +kernel : ∀ kt ∈ ipIgnored.take 3, kt.1.toList ≠ [] ∧ ∀ d ∈ kt.1.toList.head?, d ≠ 'd') kt hkt
  exact tok_char this.2 this.1

/-- The first of the two `dhcp` forms that is there. -/
theorem dhcp_read {s : St} (hg : GuardOk s.env.guard) (hy : ∀ n t, (∃ d ∈ n.toList, d.isAlphanum = false) → s.env.guard n t = true)
    {k : String} {f : Tail} (hk : k = "dhcp excluded-address" ∧ f = .eol ∨ k = "dhcp pool" ∧ f = .pool)
    {b : List Char} (h1 : b ≠ []) (h2 : Blanks b) {t : Text} (hr : tail f t = .ok () rest) :
    ip s ("ip".toList ++ (b ++ (k.toList ++ t))) = .ok (.base .nothing) rest := by
  have e : ∃ v, k.toList ++ t = 'd' :: 'h' :: v := by
    rcases hk with ⟨rfl, -⟩ | ⟨rfl, -⟩
    · exact ⟨"cp excluded-address".toList ++ t, by simp⟩
    · exact ⟨"cp pool".toList ++ t, by simp⟩
  obtain ⟨v, e⟩ := e
  have hsym : (k.toList.any (fun d => !d.isAlphanum)) = true := by rcases hk with ⟨rfl, -⟩ | ⟨rfl, -⟩ <;> decide
  rw [ip_enter hg h1 h2 (by rw [e]; intro c hc; simp at hc; subst hc; decide),
    alts_fail (ipLists_no (by rw [e]; exact tok_char (by decide) (by decide))),
    alts_fail (ipDomain_no (by rw [e]; exact tok_prefix (by simp [List.isPrefixOf]))),
    alts_fail (ipRoutes_no (by rw [e]; exact tok_char (by decide) (by decide)))]
  have nine : ∀ kt ∈ ipIgnored.take 9, tok s.env.guard kt.1 (k.toList ++ t) = .fail := by
    rw [e]
    intro kt hkt
    have := (by decide +kernel : ∀ kt ∈ ipIgnored.take 9, (kt.1.toList ≠ [] ∧ ∀ d ∈ kt.1.toList.head?, d ≠ 'd') ∨
      kt.1 = "domain") kt hkt
    rcases this with h | h
    · exact tok_char h.2 h.1
    · rw [h]; exact tok_prefix (by simp [List.isPrefixOf])
  rcases hk with ⟨rfl, rfl⟩ | ⟨rfl, rfl⟩
  · exact alts_ok (ipRest_ok (ignoredOf_find ⟨ipIgnored.take 9, ipIgnored.drop 10, rfl, nine⟩ (tok_symbol hy hsym _) hr))
  · refine alts_ok (ipRest_ok (ignoredOf_find ⟨ipIgnored.take 10, ipIgnored.drop 11, rfl, ?_⟩ (tok_symbol hy hsym _) hr))
    intro kt hkt
    rw [show ipIgnored.take 10 = ipIgnored.take 9 ++ [("dhcp excluded-address", .eol)] from rfl, List.mem_append] at hkt
    rcases hkt with hkt | hkt
    · exact nine kt hkt
    · simp at hkt
      subst hkt
      exact tok_prefix (by simp [List.isPrefixOf])

theorem pool_read {l : List Char} (h : PoolLines l) (v : Text) : tail .pool (l ++ '!' :: v) = .ok () ('!' :: v) := by
  have stop : (do
      let _ ← pat (.star isPoolChar)
      nl : P Unit) ('!' :: v) = .fail := by
    rw [bind_ok (show pat (.star isPoolChar) ('!' :: v) = .ok [] ('!' :: v) from
      pat_star (w := []) (t := '!' :: v) (by simp) (by intro c hc; simp at hc; subst hc; decide))]
    rfl
  have key : ∃ x, many (do
      let _ ← pat (.star isPoolChar)
      nl) (l ++ '!' :: v) = .ok x ('!' :: v) := by
    induction h with
    | nil => exact ⟨_, many_fail stop⟩
    | cons l t hl _ ih =>
      obtain ⟨x, hx⟩ := ih
      refine ⟨() :: x, ?_⟩
      rw [List.append_assoc]
      refine many_ok (r := t ++ '!' :: v) ?_ (by simp; omega) hx
      rw [bind_ok (show pat (.star isPoolChar) (l ++ ('\n' :: t ++ '!' :: v)) = .ok l ('\n' :: t ++ '!' :: v) from
        pat_star (fun c hc => ?_) (by intro c hc; simp at hc; subst hc; decide))]
      · rfl
      · have := hl c hc
        simp only [List.mem_cons, List.not_mem_nil, or_false, not_or] at this
        simp [isPoolChar, this]
  obtain ⟨x, hx⟩ := key
  rw [tail, bind_ok hx]
  rfl

/-! ## `ipv6` -/

theorem ipv6_enter {e : Env} (hg : GuardOk e.guard) {b : List Char} (h1 : b ≠ []) (h2 : Blanks b) {t : Text}
    (ht : ∀ c ∈ t.head?, c ≠ ' ' ∧ c ≠ '\t') : ipv6 e ("ipv6".toList ++ (b ++ t)) =
      alt (do
        let l ← ip6AccessList e
        pure (.rules l)) (do
        ignoredOf e.guard ip6Ignored
        pure (.base .nothing)) t := by
  unfold ipv6
  rw [bind_ok (tok_self hg (by decide) (blanks_end h1 h2)), bind_ok (ws_ok h1 h2 ht)]

theorem ipv6List_read {e : Env} (he : e.WF) {n : String} {l t : List Char} {rs : List IRule} (hn : IdWord n)
    (hl : Bare ["ipv6", "access-list", n] l) (h : FwsmText.Members (Ip6Body e) Bare t rs) (hne : rs ≠ []) (hr : NoSp rest) :
    ∃ rs', SameRules (rs.map (fun r => { r with id := n })) rs' ∧ ipv6 e (l ++ (t ++ rest)) = .ok (.rules rs') rest := by
  have hg := he.guardOk
  have hs := sta_of_bare (rest := t ++ rest) hl
  obtain ⟨t1, s1, f1⟩ := kw_step hg hs (by decide) (kwWord (by decide))
  obtain ⟨rs', h1, h2⟩ := ip6AccessList_read he hn h hne hr s1
  refine ⟨rs', h1, ?_⟩
  unfold ipv6
  refine (f1 _).trans ?_
  apply alt_ok
  exact bind_ok h2

theorem ipv6Other_read {e : Env} (hg : GuardOk e.guard) {k : String} {f : Tail} (hk : (k, f) ∈ ip6Ignored.take 4) {b : List Char}
    (h1 : b ≠ []) (h2 : Blanks b) {t : Text} (ht : EndOfWord t) (hr : tail f t = .ok () rest) :
    ipv6 e ("ipv6".toList ++ (b ++ (k.toList ++ t))) = .ok (.base .nothing) rest := by
  have hf := (by decide +kernel : ∀ kf ∈ ip6Ignored.take 4, noTok kf.1 "access-list" = true ∧ firstOf kf.1 ip6Ignored = some kf ∧
    (!kf.1.toList.isEmpty && kf.1.toList.all (fun c => !isBlank c)) = true) _ hk
  obtain ⟨n1, n2, n3⟩ := hf
  have wk : Word k := word_of_decide n3
  simp only [Bool.and_eq_true] at n3
  have hno : ip6AccessList e (k.toList ++ t) = .fail := by
    unfold ip6AccessList; exact bind_fail (noTok_fail hg n1 ht)
  rw [ipv6_enter hg h1 h2 (word_head wk _)]
  refine (alt_fail (bind_fail hno)).trans ?_
  exact bind_ok (ignoredOf_find (firstOf_split hg n2 ht) (tok_self hg n3.2 ht) hr)

theorem ipv6Routing_read {e : Env} (hg : GuardOk e.guard) {b u : List Char} (h1 : b ≠ []) (h2 : Blanks b) (hu : LineRest u)
    (rest : Text) : ipv6 e ("ipv6".toList ++ (b ++ ("unicast-routing".toList ++ (u ++ '\n' :: rest)))) =
      .ok (.base .nothing) ('\n' :: rest) := by
  refine ipv6Other_read (f := .open) hg (by decide) h1 h2 (by simpa using hu.eow rest) ?_
  rw [tail, bind_ok (toeol_read hu.1 rest)]
  rfl

theorem ipv6Ignored_read {e : Env} (hg : GuardOk e.guard) {k : String} (hk : k ∈ ["nd", "route", "prefix-list"]) {b b' u : List Char}
    (h1 : b ≠ []) (h2 : Blanks b) (h3 : b' ≠ []) (h4 : Blanks b') (hu : '\n' ∉ u) (hh : ∀ c ∈ u.head?, c ≠ ' ' ∧ c ≠ '\t')
    (rest : Text) : ipv6 e ("ipv6".toList ++ (b ++ (k.toList ++ (b' ++ (u ++ '\n' :: rest))))) =
      .ok (.base .nothing) ('\n' :: rest) := by
  refine ipv6Other_read (f := .wsOpen) hg ?_ h1 h2 (blanks_end h3 h4) ?_
  · simp only [List.mem_cons, List.not_mem_nil, or_false] at hk
    rcases hk with rfl | rfl | rfl <;> decide
  · rw [tail, bind_ok (ws_ok h3 h4 (by
      cases u with
      | nil => intro c hc; simp at hc; subst hc; decide
      | cons d v => intro c hc; simp at hc; subst hc; exact hh _ (by simp))), bind_ok (toeol_read hu rest)]
    rfl

end Acltk.IosText
