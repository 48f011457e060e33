import Verif.Lemmas.FwsmReadObj
import Verif.Lemmas.FwsmReadIface
import Verif.Lemmas.PegInv
import Verif.Spec.FwsmNatSpec
/-!
# Reading NAT commands as written
-/
namespace Acltk.FwsmText
open Acltk Acltk.Lookup Acltk.Peg Acltk.AclText

variable {g : Guard} {E : Text → Prop}

/-- Tokens with other characters than letters and digits are not refused. -/
def NameGuardSym (g : Guard) : Prop := ∀ n t, (∃ d ∈ n.toList, d.isAlphanum = false) → g n t = true

/-! ## lines of words with an end of their own -/

/-- What stands behind a word. -/
def AftE (E : Text → Prop) : List String → Text → Prop
  | [], t => E t
  | w :: ws, t => ∃ b t', b ≠ [] ∧ Blanks b ∧ t = b ++ (w.toList ++ t') ∧ AftE E ws t'

/-- The text begins with these words. -/
def StaE (E : Text → Prop) : List String → Text → Prop
  | [], _ => False
  | w :: ws, t => ∃ t', t = w.toList ++ t' ∧ AftE E ws t'

/-- Behind blanks there is none of these keywords. -/
def Halts (g : Guard) (t : Text) (ks : List String) : Prop :=
  ws t = .fail ∨ ∃ r, ws t = .ok () r ∧ (∀ k ∈ ks, tok g k r = .fail)

/-- The keywords that may follow in a NAT line, besides `description`. -/
def natKw : List String :=
  ["interface", "ipv6", "destination", "service", "dns", "route-lookup", "no-proxy-arp", "round-robin", "extended",
   "flat", "include-reserve", "net-to-net", "unidirectional", "inactive"]

/-- The end of a line is no keyword. -/
structure EndOk (g : Guard) (E : Text → Prop) : Prop where
  eow : ∀ t, E t → EndOfWord t
  no : ∀ t, E t → Halts g t natKw

theorem AftE.eow (hE : EndOk g E) {wl : List String} {t : Text} (h : AftE E wl t) : EndOfWord t := by
  cases wl with
  | nil => exact hE.eow t h
  | cons w wl => obtain ⟨b, t', hne, hb, rfl, -⟩ := h; exact blanks_end hne hb

theorem AftE.blanks {w : String} {wl : List String} {t : Text} (h : AftE E (w :: wl) t) (hw : Word w) :
    ∃ t', ws t = .ok () t' ∧ StaE E (w :: wl) t' := by
  obtain ⟨b, t', hne, hb, rfl, ht⟩ := h
  exact ⟨_, ws_ok hne hb (word_head hw _), t', rfl, ht⟩

theorem StaE.word (hE : EndOk g E) {w : String} {wl : List String} {t : Text} (h : StaE E (w :: wl) t) :
    ∃ t', t = w.toList ++ t' ∧ EndOfWord t' ∧ AftE E wl t' := by
  obtain ⟨t', rfl, h'⟩ := h
  exact ⟨t', rfl, h'.eow hE, h'⟩

/-- The next word is none of these keywords. -/
def Nxt (ks wl : List String) : Prop := ∀ w ∈ wl.head?, Word w ∧ ∀ k ∈ ks, mayMatch w k = false

theorem nxt_of_mem {ks wl L : List String} (h : ∀ w ∈ wl.head?, w ∈ L)
    (hd : (L.all (fun w => (!w.toList.isEmpty && w.toList.all (fun c => !isBlank c)) && ks.all (fun k => !mayMatch w k))) = true) :
    Nxt ks wl := by
  intro w hw
  have := List.all_eq_true.1 hd w (h w hw)
  rw [Bool.and_eq_true] at this
  refine ⟨word_of_decide this.1, fun k hk => ?_⟩
  have := List.all_eq_true.1 this.2 k hk
  simpa using this

theorem natKw_noBlank : ∀ k ∈ natKw, ∀ c ∈ k.toList, isBlank c = false := kwNoBlank (by decide)

theorem AftE.halts (hg : GuardOk g) (hE : EndOk g E) {wl : List String} {t : Text} (h : AftE E wl t) {ks : List String}
    (hn : Nxt ks wl) (hk : ∀ k ∈ ks, k ∈ natKw) : Halts g t ks := by
  cases wl with
  | nil =>
    rcases hE.no t h with h1 | ⟨r, h1, h2⟩
    · exact Or.inl h1
    · exact Or.inr ⟨r, h1, fun k hkk => h2 k (hk k hkk)⟩
  | cons w wl =>
    obtain ⟨hw, hm⟩ := hn w (by simp)
    obtain ⟨t', h1, t2, rfl, h2⟩ := h.blanks hw
    exact Or.inr ⟨_, h1, fun k hkk => tok_no hg (natKw_noBlank k (hk k hkk)) (h2.eow hE) (hm k hkk)⟩

theorem Halts.fail {t : Text} {ks : List String} (h : Halts g t ks) {β : Type} {p : P β}
    (hp : ∀ r, (∀ k ∈ ks, tok g k r = .fail) → p r = .fail) : (ws >>= fun _ => p) t = .fail := by
  rcases h with h | ⟨r, h1, h2⟩
  · exact bind_fail h
  · rw [bind_ok h1]; exact hp r h2

theorem Halts.opt {t : Text} {ks : List String} (h : Halts g t ks) {β : Type} {p : P β}
    (hp : ∀ r, (∀ k ∈ ks, tok g k r = .fail) → p r = .fail) : Peg.opt (ws >>= fun _ => p) t = .ok none t :=
  opt_fail (h.fail hp)

theorem oneOf_all_fail {l : List String} {t : Text} (h : ∀ k ∈ l, tok g k t = .fail) : oneOf g l t = .fail := by
  induction l with
  | nil => rfl
  | cons k l ih =>
    unfold oneOf
    rw [alt_fail (h k (by simp))]
    exact ih (fun k hk => h k (by simp [hk]))

/-- A keyword and the blanks behind it. -/
theorem kw_stepE (hg : GuardOk g) (hE : EndOk g E) {k w : String} {wl : List String} {t : Text}
    (hs : StaE E (k :: w :: wl) t) (hk : (k.toList.all (fun c => !isBlank c)) = true) (hw : Word w) :
    ∃ t', StaE E (w :: wl) t' ∧ ∀ {β : Type} (f : String → P β),
      (tok g k >>= fun x => ws >>= fun _ => f x) t = f k t' := by
  obtain ⟨t1, rfl, h1⟩ := hs
  obtain ⟨t2, h2, h3⟩ := h1.blanks hw
  exact ⟨t2, h3, fun f => by rw [bind_ok (tok_self hg hk (h1.eow hE)), bind_ok h2]⟩

theorem tok_noE (hg : GuardOk g) (hE : EndOk g E) {w : String} {wl : List String} {t : Text} (hs : StaE E (w :: wl) t)
    {k : String} (hk : (k.toList.all (fun c => !isBlank c)) = true) (h : mayMatch w k = false) : tok g k t = .fail := by
  obtain ⟨t1, rfl, h1⟩ := hs
  exact tok_no hg (noBlank_of_decide hk) (h1.eow hE) h

/-! ## the two ends -/

/-- Blanks and a line end. -/
def LineEnd (rest t : Text) : Prop := ∃ b n, Blanks b ∧ (n = ['\n'] ∨ n = ['\r', '\n']) ∧ t = b ++ (n ++ rest)

/-- A description up to the line end. -/
def DescrEnd (d rest t : Text) : Prop :=
  ∃ b0 b, b0 ≠ [] ∧ Blanks b0 ∧ b ≠ [] ∧ Blanks b ∧ '\n' ∉ d ∧ (∀ c ∈ d.head?, c ≠ ' ' ∧ c ≠ '\t') ∧
    t = b0 ++ ("description".toList ++ (b ++ (d ++ '\n' :: rest)))

theorem tok_at_nl {k : String} {n rest : Text} (hk : ∀ c ∈ k.toList, isBlank c = false) (hne : k.toList ≠ [])
    (hn : n = ['\n'] ∨ n = ['\r', '\n']) : tok g k (n ++ rest) = .fail := by
  unfold tok
  cases hx : token g (n ++ rest) k with
  | none => rfl
  | some p =>
    exfalso
    have h1 := (token_inv hx).2
    cases hl : k.toList with
    | nil => exact hne hl
    | cons c l =>
      have hc := hk c (by rw [hl]; simp)
      rw [hl] at h1
      rcases hn with rfl | rfl <;>
        (simp only [List.cons_append, List.nil_append, List.cons.injEq] at h1; rw [← h1.1] at hc; revert hc; decide)

theorem lineEnd_ok (rest : Text) : EndOk g (LineEnd rest) := by
  refine ⟨?_, ?_⟩
  · rintro t ⟨b, n, hb, hn, rfl⟩
    exact After.endOfWord (rest := rest) (ws := []) ⟨b, n, hb, hn, rfl⟩
  · rintro t ⟨b, n, hb, hn, rfl⟩
    have hh : ∀ c ∈ (n ++ rest).head?, c ≠ ' ' ∧ c ≠ '\t' := by
      rcases hn with rfl | rfl <;> (intro c hc; simp at hc; subst hc; decide)
    by_cases hne : b = []
    · subst hne
      exact Or.inl (ws_fail hh)
    · refine Or.inr ⟨_, ws_ok hne hb hh, fun k hk => ?_⟩
      exact tok_at_nl (natKw_noBlank k hk) ((by decide : ∀ k ∈ natKw, k.toList ≠ []) k hk) hn

theorem descrEnd_ok (hg : GuardOk g) (d rest : Text) : EndOk g (DescrEnd d rest) := by
  refine ⟨?_, ?_⟩
  · rintro t ⟨b0, b, h0, hb0, -, -, -, -, rfl⟩
    exact blanks_end h0 hb0
  · rintro t ⟨b0, b, h0, hb0, h1, hb1, -, -, rfl⟩
    refine Or.inr ⟨_, ws_ok h0 hb0 (by intro c hc; simp at hc; subst hc; decide), fun k hk => ?_⟩
    exact tok_no (w := "description") hg (natKw_noBlank k hk) (blanks_end h1 hb1)
      ((by decide +kernel : ∀ k ∈ natKw, mayMatch "description" k = false) k hk)

theorem aftE_line {rest : Text} : ∀ {wl : List String} {t : Text}, Aft true rest wl t → AftE (LineEnd rest) wl t
  | [], _, ⟨b, n, hb, _, hn, h⟩ => ⟨b, n, hb, hn, h⟩
  | _ :: _, _, ⟨b, t', hne, hb, h, h'⟩ => ⟨b, t', hne, hb, h, aftE_line h'⟩

theorem staE_line {rest : Text} {wl : List String} {t : Text} (h : Line wl t) : StaE (LineEnd rest) wl (t ++ rest) := by
  have := sta_of_line (rest := rest) h
  cases wl with
  | nil => exact this
  | cons w wl => obtain ⟨t', h1, h2⟩ := this; exact ⟨t', h1, aftE_line h2⟩

theorem staE_descr {rest : Text} {wl : List String} {t : Text} (h : Spaced (wl ++ ["description"]) t) (hne : wl ≠ [])
    {b d : Text} (hb : b ≠ []) (hb' : Blanks b) (hd : '\n' ∉ d) (hh : ∀ c ∈ d.head?, c ≠ ' ' ∧ c ≠ '\t') :
    StaE (DescrEnd d rest) wl (t ++ (b ++ (d ++ ['\n'])) ++ rest) := by
  induction wl generalizing t with
  | nil => exact absurd rfl hne
  | cons w wl ih =>
    rw [List.cons_append] at h
    generalize hl : wl ++ ["description"] = l at h
    cases h with
    | one => simp at hl
    | cons _ b0 _ t' h0 hb0 hs =>
      subst hl
      cases wl with
      | nil =>
        cases hs with
        | one => exact ⟨_, by simp only [List.append_assoc]; rfl, b0, b, h0, hb0, hb, hb', hd, hh, by simp⟩
        | cons _ _ _ _ _ _ hs => cases hs
      | cons w' wl =>
        obtain ⟨t2, h1, h2⟩ := ih hs (by simp)
        refine ⟨b0 ++ (t' ++ (b ++ (d ++ ['\n'])) ++ rest), by simp, b0, t2, h0, hb0, ?_, h2⟩
        rw [h1]

/-! ## interfaces -/

theorem apart_tok (hg : GuardOk g) {k w : String} (hk : ∀ c ∈ k.toList, c.isAlphanum = true)
    (hk' : ∃ a l, k.toList = a :: l ∧ a.isAlpha = true) (h : Apart k w) {c : Char} (hc : c.isAlphanum = false) (t : Text) :
    tok g k (w.toList ++ c :: t) = .fail := by
  unfold tok
  cases hx : token g (w.toList ++ c :: t) k with
  | none => rfl
  | some p =>
    exfalso
    obtain ⟨rest, hr, rfl⟩ := token_some hx
    obtain ⟨a, ha⟩ := prefix_of_word (stop := fun c => !c.isAlphanum) (by intro d hd; simp [hk d hd]) (by simp [hc]) hr
    cases a with
    | nil => exact h.1 (String.toList_inj.1 (by simpa using ha.symm))
    | cons d a =>
      have hd := h.2 d a ha.symm
      unfold token at hx
      split at hx
      · simp only at hx
        have e : List.drop k.toList.length (w.toList ++ c :: t) = d :: (a ++ c :: t) := by
          rw [← ha, List.append_assoc, List.drop_left]; rfl
        rw [e, hg.refuses k d _ hk' hk hd] at hx
        simp at hx
      · cases hx

theorem apart_mayMatch {k w : String} (hk : k.toList.all Char.isAlphanum = true)
    (hk' : (k.toList.head?.map Char.isAlpha).getD false = true) (h : Apart k w) : mayMatch w k = false := by
  unfold mayMatch
  rw [Bool.or_eq_false_iff]
  refine ⟨by simpa using fun e : k = w => h.1 e.symm, ?_⟩
  by_cases hp : k.toList.isPrefixOf w.toList = true
  · rw [hp, Bool.true_and, Bool.not_eq_false', hk, hk']
    rw [List.isPrefixOf_iff_prefix] at hp
    obtain ⟨a, ha⟩ := hp
    rw [← ha, List.drop_left]
    cases a with
    | nil => exact absurd (String.toList_inj.1 (by simpa using ha.symm)) h.1
    | cons c u =>
      simpa using h.2 c u ha.symm
  · simp [hp]

theorem natIface_read {s : St} (hg : GuardOk s.env.guard) {w : String} {i : NatCmd.IfRef} (h : IfWord s w i) {c : Char}
    (hc : c.isAlphanum = false) (hn : ∀ p ∈ s.ifaces, c ∉ p.1.toList) (t : Text) :
    natIface s (w.toList ++ c :: t) = .ok i (c :: t) := by
  unfold natIface
  cases h with
  | any =>
    apply alt_ok
    have : tok s.env.guard "any" ("any".toList ++ c :: t) = .ok "any" (c :: t) := by
      unfold tok token
      have : "any".toList.isPrefixOf ("any".toList ++ c :: t) = true := by
        rw [List.isPrefixOf_iff_prefix]; exact ⟨_, rfl⟩
      simp [hg.passes "any" c t hc]
    rw [bind_ok this]
    rfl
  | known w i hk ha =>
    rw [alt_fail (bind_fail (apart_tok hg (by decide) ⟨'a', _, rfl, by decide⟩ ha hc t))]
    have hm : w ∈ keys s.ifaces := by rw [keys_eq, ← dGet_isSome_iff, hk]; rfl
    have := (internalIds_word (guard := s.env.guard) (stop := fun d => d == c) (names := keys s.ifaces) (w := w)
      (s := c) (rest := t) (fun n d t hd => by
        have : d = c := by simpa using hd
        subst this; exact hg.passes n d t hc)
      (fun n hn' d hd => by
        have : ∃ p ∈ s.ifaces, p.1 = n := by simpa [keys] using hn'
        obtain ⟨p, hp, rfl⟩ := this
        have := hn p hp
        simp only [beq_eq_false_iff_ne]
        rintro rfl; exact this hd) (by simp)).1 hm
    have hr : interfaceRef s (w.toList ++ c :: t) = .ok i (c :: t) := by
      unfold interfaceRef
      simp only [this, hk]
    rw [bind_ok hr]
    rfl

theorem natInterfaces_read {s : St} (hg : GuardOk s.env.guard) {w : String} {r m : NatCmd.IfRef} (h : PairWord s w r m)
    (t : Text) : natInterfaces s (w.toList ++ t) = .ok (r, m) t := by
  obtain ⟨-, hp, a, b, ha, hb, hw⟩ := h
  have e : w.toList ++ t = '(' :: (a.toList ++ ',' :: (b.toList ++ ')' :: t)) := by rw [hw]; simp
  have cc : ∀ (c : Char) (t : Text), chr c (c :: t) = .ok () t := by intro c t; simp [chr]
  unfold natInterfaces
  rw [e, bind_ok (cc _ _), bind_ok (natIface_read hg ha (by decide) (fun p hp' => (hp p hp').1) _), bind_ok (cc _ _),
    bind_ok (natIface_read hg hb (by decide) (fun p hp' => (hp p hp').2) _), bind_ok (cc _ _)]
  rfl

/-! ## names, fallbacks and pools -/

theorem NetName.word {e : Env} (he : e.WF) {w : String} {h : Host} (hn : NetName e w h) : Word w := by
  cases hn with
  | object hk => exact known_word he.netObjs hk
  | group _ hk => exact known_word he.netGroups hk

theorem PoolName.word {e : Env} (he : e.WF) {w : String} {h : Host} (hn : PoolName e w h) : Word w := by
  cases hn with
  | object _ hk => exact known_word he.netObjs hk
  | group hk => exact known_word he.netGroups hk

theorem netRef_read {s : St} (he : s.env.WF) {w : String} {h : Host} (hn : NetName s.env w h) {t : Text} (ht : EndOfWord t) :
    netRef s (w.toList ++ t) = .ok h t := by
  have hg := he.guardOk
  have hw := hn.word he
  unfold netRef
  cases hn with
  | object hk => exact alt_ok (refer_known hg he.netObjs hk ht)
  | group ho hk =>
    rw [alt_fail (refer_unknown hg he.netObjs hw.noBlank ho ht)]
    exact refer_known hg he.netGroups hk ht

theorem netRef_no {s : St} (he : s.env.WF) {w : String} (hw : Word w) (hf : Fresh s.env w) {t : Text} (ht : EndOfWord t) :
    netRef s (w.toList ++ t) = .fail := by
  have hg := he.guardOk
  unfold netRef
  rw [alt_fail (refer_unknown hg he.netObjs hw.noBlank hf.1 ht)]
  exact refer_unknown hg he.netGroups hw.noBlank hf.2 ht

theorem nxt_sub {ks ks' wl : List String} (h : Nxt ks wl) (hs : ∀ k ∈ ks', k ∈ ks) : Nxt ks' wl :=
  fun w hw => ⟨(h w hw).1, fun k hk => (h w hw).2 k (hs k hk)⟩

theorem fallback_read (hg : GuardOk g) (hE : EndOk g E) {wl : List String} {t : Text} (hn : Nxt ["ipv6"] wl) :
    (StaE E ("interface" :: wl) t → ∃ t', fallback g t = .ok ⟨some none, false⟩ t' ∧ AftE E wl t') ∧
    (StaE E ("interface" :: "ipv6" :: wl) t → ∃ t', fallback g t = .ok ⟨some none, true⟩ t' ∧ AftE E wl t') := by
  constructor
  · intro hs
    obtain ⟨t1, rfl, e1, s1⟩ := hs.word hE
    refine ⟨t1, ?_, s1⟩
    unfold fallback
    rw [bind_ok (tok_self hg (by decide) e1), bind_ok ((s1.halts hg hE hn (by decide)).opt (fun r h => h _ (by simp)))]
    rfl
  · intro hs
    obtain ⟨t1, rfl, e1, s1⟩ := hs.word hE
    obtain ⟨t2, h2, s2⟩ := s1.blanks (kwWord (by decide))
    obtain ⟨t3, rfl, e3, s3⟩ := s2.word hE
    refine ⟨t3, ?_, s3⟩
    unfold fallback
    rw [bind_ok (tok_self hg (by decide) e1), bind_ok (opt_ok (a := "ipv6") (r := t3) (by
      rw [bind_ok h2]; exact tok_self hg (by decide) e3))]
    rfl

theorem fallback_no (hg : GuardOk g) {w : String} (hm : mayMatch w "interface" = false) {t : Text} (ht : EndOfWord t) :
    fallback g (w.toList ++ t) = .fail :=
  bind_fail (tok_no hg (noBlank_of_decide (by decide)) ht hm)

theorem optFallback_read (hg : GuardOk g) (hE : EndOk g E) {fw wl : List String} {f : Option NatCmd.Fallback} {t : Text}
    (hf : FallbackWords fw f) (hs : AftE E (fw ++ wl) t) (hn : Nxt ["interface", "ipv6"] wl) :
    ∃ t', optFallback g t = .ok f t' ∧ AftE E wl t' := by
  have wi : Word "interface" := kwWord (by decide)
  unfold optFallback
  cases hf with
  | none =>
    refine ⟨t, ?_, hs⟩
    exact ((hs.halts hg hE (nxt_sub hn (ks' := ["interface"]) (by decide)) (by decide)).opt
      (fun r h => bind_fail (h _ (by simp))))
  | v4 =>
    obtain ⟨t1, h1, s1⟩ := hs.blanks wi
    obtain ⟨t2, h2, s2⟩ := (fallback_read hg hE (nxt_sub hn (by decide))).1 s1
    exact ⟨t2, opt_ok (by rw [bind_ok h1]; exact h2), s2⟩
  | v6 =>
    obtain ⟨t1, h1, s1⟩ := hs.blanks wi
    obtain ⟨t2, h2, s2⟩ := (fallback_read hg hE (nxt_sub hn (by decide))).2 s1
    exact ⟨t2, opt_ok (by rw [bind_ok h1]; exact h2), s2⟩

/-- One option of a pool. -/
def poolOpt (g : Guard) : P Unit := do
  ws
  alts
    [ do let _ ← tok g "round-robin"; pure (),
      do let _ ← tok g "extended"; pure (),
      do
        let _ ← tok g "flat"
        let _ ← opt (do
          ws
          tok g "include-reserve")
        pure () ]

/-- What follows a pool or a fallback. -/
def poolKs : List String := ["round-robin", "extended", "flat", "include-reserve"]

theorem aftE_length {w : String} {wl : List String} {t t1 : Text} (h : AftE E (w :: wl) t)
    (h1 : ws t = .ok () (w.toList ++ t1)) (hw : Word w) : t1.length < t.length := by
  obtain ⟨b, t', hne, hb, rfl, -⟩ := h
  rw [ws_ok hne hb (word_head hw _)] at h1
  have : t' = t1 := by
    have := (Res.ok.inj h1).2
    exact List.append_cancel_left this
  subst this
  have := List.length_pos_iff.2 hne
  simp; omega

theorem poolOpts_read (hg : GuardOk g) (hE : EndOk g E) {os wl : List String} (ho : PoolOptions os) : ∀ {t : Text},
    AftE E (os ++ wl) t → Nxt poolKs wl → ∃ l t', many (poolOpt g) t = .ok l t' ∧ AftE E wl t' := by
  have key : ∀ {os : List String}, PoolOptions os → Nxt poolKs wl → Nxt ["include-reserve"] (os ++ wl) := by
    intro os h hn
    cases h with
    | nil => exact nxt_sub hn (by decide)
    | word w ws hw _ => exact nxt_of_mem (L := ["round-robin", "extended", "flat"]) (by simp only [List.cons_append, List.head?_cons, Option.mem_some_iff, forall_eq']; exact hw) (by decide +kernel)
    | reserve ws _ => exact nxt_of_mem (L := ["flat"]) (by simp) (by decide +kernel)
  induction ho with
  | nil =>
    intro t hs hn
    refine ⟨[], t, ?_, hs⟩
    apply many_fail
    apply (hs.halts hg hE (nxt_sub hn (ks' := ["round-robin", "extended", "flat"]) (by decide)) (by decide)).fail
    intro r h
    rw [alts_fail (bind_fail (h _ (by simp))), alts_fail (bind_fail (h _ (by simp))), alts_fail (bind_fail (h _ (by simp)))]
    rfl
  | word w os hw ho ih =>
    intro t hs hn
    have ww : Word w := mem_word (by decide) hw
    have hs' : AftE E (w :: (os ++ wl)) t := hs
    obtain ⟨t1, h1, s1⟩ := hs'.blanks ww
    obtain ⟨t2, rfl, e2, s2⟩ := s1.word hE
    obtain ⟨l, t3, h3, s3⟩ := ih s2 hn
    refine ⟨() :: l, t3, ?_, s3⟩
    refine many_ok (r := t2) ?_ (aftE_length hs' h1 ww) h3
    unfold poolOpt
    rw [bind_ok h1]
    simp only [List.mem_cons, List.not_mem_nil, or_false] at hw
    rcases hw with rfl | rfl | rfl
    · apply alts_ok
      rw [bind_ok (tok_self hg (by decide) e2)]; rfl
    · rw [alts_fail (bind_fail (tok_no hg (noBlank_of_decide (by decide)) e2 (by decide)))]
      apply alts_ok
      rw [bind_ok (tok_self hg (by decide) e2)]; rfl
    · rw [alts_fail (bind_fail (tok_no hg (noBlank_of_decide (by decide)) e2 (by decide))),
        alts_fail (bind_fail (tok_no hg (noBlank_of_decide (by decide)) e2 (by decide)))]
      apply alts_ok
      rw [bind_ok (tok_self hg (by decide) e2),
        bind_ok ((s2.halts hg hE (key ho hn) (by decide)).opt (fun r h => h _ (by simp)))]
      rfl
  | reserve os ho ih =>
    intro t hs hn
    have wf : Word "flat" := kwWord (by decide)
    have hs' : AftE E ("flat" :: "include-reserve" :: (os ++ wl)) t := hs
    obtain ⟨t1, h1, s1⟩ := hs'.blanks wf
    obtain ⟨t2, rfl, e2, s2⟩ := s1.word hE
    obtain ⟨t4, h4, s4⟩ := s2.blanks (kwWord (by decide))
    obtain ⟨t5, rfl, e5, s5⟩ := s4.word hE
    obtain ⟨l, t3, h3, s3⟩ := ih s5 hn
    refine ⟨() :: l, t3, ?_, s3⟩
    have l1 := aftE_length hs' h1 wf
    have l2 := aftE_length s2 h4 (kwWord (by decide))
    refine many_ok (r := t5) ?_ (by omega) h3
    unfold poolOpt
    rw [bind_ok h1, alts_fail (bind_fail (tok_no hg (noBlank_of_decide (by decide)) e2 (by decide))),
        alts_fail (bind_fail (tok_no hg (noBlank_of_decide (by decide)) e2 (by decide)))]
    apply alts_ok
    rw [bind_ok (tok_self hg (by decide) e2), bind_ok (opt_ok (a := "include-reserve") (r := t5) (by
      rw [bind_ok h4]; exact tok_self hg (by decide) e5))]
    rfl

theorem pool_read {s : St} (he : s.env.WF) (hE : EndOk s.env.guard E) {pw wl : List String} {h : Host}
    (hp : PoolWords s.env pw h) {t : Text} (hs : StaE E (pw ++ wl) t) (hn : Nxt poolKs wl) :
    ∃ t', patPool s t = .ok h t' ∧ AftE E wl t' := by
  have hg := he.guardOk
  cases hp with
  | mk w os h hw ho =>
    have ww := hw.word he
    obtain ⟨t1, s1, f1⟩ := kw_stepE hg hE (wl := os ++ wl) hs (by decide) ww
    obtain ⟨t2, rfl, e2, s2⟩ := s1.word hE
    obtain ⟨l, t3, h3, s3⟩ := poolOpts_read hg hE ho s2 hn
    refine ⟨t3, ?_, s3⟩
    unfold patPool
    rw [f1]
    have hr : alt (refer s.env.guard wsOrNl s.env.netGroups) (refer s.env.guard wsOrNl s.env.netObjs) (w.toList ++ t2) = .ok h t2 := by
      cases hw with
      | group hk => exact alt_ok (refer_known hg he.netGroups hk e2)
      | object ho hk =>
        rw [alt_fail (refer_unknown hg he.netGroups ww.noBlank ho e2)]
        exact refer_known hg he.netObjs hk e2
    rw [bind_ok hr]
    have h3' := h3
    unfold poolOpt at h3'
    rw [bind_ok h3']
    rfl

theorem IfaceWords.first {e : Env} {ws : List String} (h : IfaceWords e ws) :
    Fresh e "interface" ∧ (ws = ["interface"] ∨ ws = ["interface", "ipv6"]) := by
  cases h with
  | v4 h => exact ⟨h, Or.inl rfl⟩
  | v6 h => exact ⟨h, Or.inr rfl⟩

theorem iface_read (hg : GuardOk g) (hE : EndOk g E) {e : Env} {ws wl : List String} (h : IfaceWords e ws) {t : Text}
    (hs : StaE E (ws ++ wl) t) (hn : Nxt ["ipv6"] wl) : ∃ f t', fallback g t = .ok f t' ∧ AftE E wl t' := by
  cases h with
  | v4 _ => obtain ⟨t', h⟩ := (fallback_read hg hE hn).1 hs; exact ⟨_, t', h⟩
  | v6 _ => obtain ⟨t', h⟩ := (fallback_read hg hE hn).2 hs; exact ⟨_, t', h⟩

theorem poolWords_first {e : Env} {pw : List String} {h : Host} (hp : PoolWords e pw h) : ∃ l, pw = "pat-pool" :: l := by
  cases hp; exact ⟨_, rfl⟩

/-! ## NAT of a network object -/

theorem ip6_not_hex {t : Text} (h : ∀ c ∈ t.head?, isHex c = false ∧ c ≠ ':') : ip6 t = .fail := by
  unfold ip6
  apply bind_fail
  apply pat_fail
  cases t with
  | nil => rfl
  | cons c t =>
    obtain ⟨h1, h2⟩ := h c (by simp)
    have : (Re.chr ':').run (c :: t) = [] := by simp [Re.chr, Re.run, h2]
    simp [ip6Re, Re.run, starRests, h1, this]

theorem objMapped_first {e : Env} (he : e.WF) {mw : List String} {n : NatCmd.Node'} {f : Option NatCmd.Fallback}
    (h : ObjMapped e mw n f) : ∃ w wl, mw = w :: wl ∧ Word w := by
  cases h with
  | name w h fw f hn hf => exact ⟨_, _, rfl, hn.word he⟩
  | v4 w n fw f _ hn hw hf => exact ⟨_, _, rfl, dotted_word hn hw⟩
  | v6 w n fw f _ h6 hf => exact ⟨_, _, rfl, v6_word h6⟩
  | slash w a m x p n fw f _ h6 hw hm _ _ hf => exact ⟨_, _, rfl, v6Slash_word h6 hw hm⟩
  | interface ws h =>
    obtain ⟨-, rfl | rfl⟩ := h.first <;> exact ⟨_, _, rfl, kwWord (by decide)⟩
  | pool ws fw h f _ hp hf =>
    obtain ⟨l, rfl⟩ := poolWords_first hp
    exact ⟨_, _, rfl, kwWord (by decide)⟩

/-- What may follow the mapped side is none of its keywords. -/
def mappedKs : List String := ["interface", "ipv6"] ++ poolKs

theorem nxt_pool_fallback {fw wl : List String} {f : Option NatCmd.Fallback} (hf : FallbackWords fw f) (hn : Nxt mappedKs wl) :
    Nxt poolKs (fw ++ wl) := by
  cases hf with
  | none => exact nxt_sub hn (by decide)
  | v4 => exact nxt_of_mem (L := ["interface"]) (by simp) (by decide +kernel)
  | v6 => exact nxt_of_mem (L := ["interface"]) (by simp) (by decide +kernel)

theorem natMapped_read {s : St} (he : s.env.WF) (hE : EndOk s.env.guard E) {mw wl : List String} {n : NatCmd.Node'}
    {f : Option NatCmd.Fallback} (h : ObjMapped s.env mw n f) {t : Text} (hs : StaE E (mw ++ wl) t) (hn : Nxt mappedKs wl) :
    ∃ t', natMapped s t = .ok (n, f) t' ∧ AftE E wl t' := by
  have hg := he.guardOk
  have hn1 : Nxt ["interface", "ipv6"] wl := nxt_sub hn (by decide)
  unfold natMapped
  cases h with
  | name w h fw f hw hf =>
    obtain ⟨t1, rfl, e1, s1⟩ := StaE.word (wl := fw ++ wl) hE hs
    obtain ⟨t2, h2, s2⟩ := optFallback_read hg hE hf s1 hn1
    exact ⟨t2, alts_ok (by rw [bind_ok (netRef_read he hw e1), bind_ok h2]; rfl), s2⟩
  | v4 w x fw f hfr hx hw hf =>
    obtain ⟨t1, rfl, e1, s1⟩ := StaE.word (wl := fw ++ wl) hE hs
    obtain ⟨t2, h2, s2⟩ := optFallback_read hg hE hf s1 hn1
    refine ⟨t2, ?_, s2⟩
    rw [alts_fail (bind_fail (netRef_no he (dotted_word hx hw) hfr e1))]
    apply alts_ok
    rw [bind_ok (ip4_read hx hw e1), bind_ok h2]
    rfl
  | v6 w x fw f hfr h6 hf =>
    obtain ⟨t1, rfl, e1, s1⟩ := StaE.word (wl := fw ++ wl) hE hs
    obtain ⟨t2, h2, s2⟩ := optFallback_read hg hE hf s1 hn1
    refine ⟨t2, ?_, s2⟩
    rw [alts_fail (bind_fail (netRef_no he (v6_word h6) hfr e1)), alts_fail (bind_fail (ip4_v6 h6 _))]
    apply alts_ok
    have hsl : Peg.opt (slashP >>= fun _ => intP) t1 = .ok none t1 := by
      apply opt_fail
      apply bind_fail
      obtain ⟨u, rfl | rfl | rfl | rfl⟩ := e1 <;> rfl
    rw [bind_ok (ip6_text h6 (endOfWord_not_hex e1)), bind_ok hsl,
      bind_ok (act_ok (show mappedAddress ⟨.v6, x⟩ none = .ok (.host ⟨.v6, x⟩) from rfl) _), bind_ok h2]
    rfl
  | slash w a m x p n fw f hfr h6 hw hm hmask hnet hf =>
    obtain ⟨t1, rfl, e1, s1⟩ := StaE.word (wl := fw ++ wl) hE hs
    obtain ⟨t2, h2, s2⟩ := optFallback_read hg hE hf s1 hn1
    refine ⟨t2, ?_, s2⟩
    have ew : w.toList ++ t1 = a ++ '/' :: (m ++ t1) := by rw [hw]; simp
    rw [alts_fail (bind_fail (netRef_no he (v6Slash_word h6 hw hm) hfr e1)), ew, alts_fail (bind_fail (ip4_v6 h6 _))]
    apply alts_ok
    have hsl : Peg.opt (slashP >>= fun _ => intP) ('/' :: (m ++ t1)) = .ok (some m) t1 := by
      apply opt_ok
      rw [bind_ok (show slashP ('/' :: (m ++ t1)) = .ok () (m ++ t1) from rfl)]
      exact intP_digits (maskText_ne hmask) hm e1
    have hma : mappedAddress ⟨.v6, x⟩ (some m) = .ok (.net n) := by
      simp only [mappedAddress, mkNetwork_networkOf (v6_valid h6) hmask hnet]
    rw [bind_ok (ip6_text h6 (by intro c hc; simp at hc; subst hc; decide)), bind_ok hsl, bind_ok (act_ok hma _), bind_ok h2]
    rfl
  | interface iw h =>
    obtain ⟨fr, hw⟩ := h.first
    obtain ⟨x, t2, h2, s2⟩ := iface_read hg hE h hs (nxt_sub hn (by decide))
    obtain ⟨wl', hwl⟩ : ∃ l, mw ++ wl = "interface" :: l := by rcases hw with rfl | rfl <;> exact ⟨_, rfl⟩
    rw [hwl] at hs
    obtain ⟨t1, rfl, e1, s1⟩ := hs.word hE
    refine ⟨t2, ?_, s2⟩
    rw [alts_fail (bind_fail (netRef_no he (kwWord (by decide)) fr e1)),
      alts_fail (bind_fail (ip4_not_digit (by intro c hc; simp at hc; subst hc; decide) (by simp))),
      alts_fail (bind_fail (ip6_not_hex (by intro c hc; simp at hc; subst hc; decide)))]
    apply alts_ok
    rw [bind_ok h2]
    rfl
  | pool ws fw h f fr hp hf =>
    rw [List.append_assoc] at hs
    obtain ⟨t2, h2, s2⟩ := pool_read he hE hp hs (nxt_pool_fallback hf hn)
    obtain ⟨t3, h3, s3⟩ := optFallback_read hg hE hf s2 hn1
    obtain ⟨l, rfl⟩ := poolWords_first hp
    obtain ⟨t1, rfl, e1, s1⟩ := StaE.word (wl := l ++ (fw ++ wl)) hE hs
    refine ⟨t3, ?_, s3⟩
    rw [alts_fail (bind_fail (netRef_no he (kwWord (by decide)) fr e1)),
      alts_fail (bind_fail (ip4_not_digit (by intro c hc; simp at hc; subst hc; decide) (by simp))),
      alts_fail (bind_fail (ip6_not_hex (by intro c hc; simp at hc; subst hc; decide))),
      alts_fail (bind_fail (fallback_no hg (by decide) e1))]
    apply alts_ok
    rw [bind_ok h2, bind_ok h3]
    rfl

theorem objNatHead_read {s : St} (he : s.env.WF) (hE : EndOk s.env.guard E) {p ty : String} {r m : NatCmd.IfRef}
    {mw wl : List String} {n : NatCmd.Node'} {f : Option NatCmd.Fallback} (hp : PairWord s p r m)
    (hty : (!ty.toList.isEmpty && ty.toList.all (fun c => !isBlank c)) = true) (h : ObjMapped s.env mw n f)
    {t : Text} (hs : StaE E ("nat" :: p :: ty :: (mw ++ wl)) t) (hn : Nxt mappedKs wl) :
    (∃ t', objectNatHead s ty t = .ok ((r, m), n, f) t' ∧ AftE E wl t') ∧
    ∀ ty', (ty'.toList.all (fun c => !isBlank c)) = true → mayMatch ty ty' = false → objectNatHead s ty' t = .fail := by
  have hg := he.guardOk
  have wt : Word ty := kwWord hty
  have hty' : (ty.toList.all (fun c => !isBlank c)) = true := (Bool.and_eq_true _ _ ▸ hty).2
  obtain ⟨t1, s1, f1⟩ := kw_stepE hg hE hs (by decide) hp.1
  obtain ⟨t2, rfl, e2, s2⟩ := s1.word hE
  obtain ⟨t3, h3, s3⟩ := s2.blanks wt
  constructor
  · obtain ⟨w0, l0, hm0, hw0⟩ := objMapped_first he h
    rw [hm0] at s3
    obtain ⟨t4, s4, f4⟩ := kw_stepE hg hE (wl := l0 ++ wl) s3 hty' hw0
    obtain ⟨t5, h5, s5⟩ := natMapped_read he hE h (by rw [hm0]; exact s4) hn
    refine ⟨t5, ?_, s5⟩
    unfold objectNatHead
    rw [f1, bind_ok (natInterfaces_read hg hp t2), bind_ok h3, f4, bind_ok h5]
    rfl
  · intro ty' hk hm
    unfold objectNatHead
    rw [f1, bind_ok (natInterfaces_read hg hp t2), bind_ok h3]
    exact bind_fail (tok_noE hg hE s3 hk hm)

theorem objOpts_read (hg : GuardOk g) {rest : Text} {os : List String} : (∀ o ∈ os, o ∈ objNatOptions) → ∀ {t : Text},
    AftE (LineEnd rest) os t → objectNatTail g t = .ok os rest := by
  have hE := lineEnd_ok (g := g) rest
  have key : ∀ {os : List String}, (∀ o ∈ os, o ∈ objNatOptions) → ∀ {t : Text}, AftE (LineEnd rest) os t →
      ∃ t', many (ws >>= fun _ => oneOf g ["route-lookup", "no-proxy-arp", "dns"]) t = .ok os t' ∧ LineEnd rest t' := by
    intro os
    induction os with
    | nil =>
      intro _ t h
      exact ⟨t, many_fail ((AftE.halts (wl := []) (ks := ["route-lookup", "no-proxy-arp", "dns"]) hg hE h (by intro w hw; simp at hw)
        (by decide)).fail (fun r h => oneOf_all_fail h)), h⟩
    | cons o os ih =>
      intro ho t h
      have hm : o ∈ objNatOptions := ho o (by simp)
      have ww : Word o := mem_word (by decide) hm
      obtain ⟨t1, h1, s1⟩ := h.blanks ww
      obtain ⟨t2, rfl, e2, s2⟩ := s1.word hE
      obtain ⟨t3, h3, s3⟩ := ih (fun o ho' => ho o (by simp [ho'])) s2
      refine ⟨t3, many_ok (r := t2) ?_ (aftE_length h h1 ww) h3, s3⟩
      rw [bind_ok h1]
      exact oneOf_word hg e2 (kwNoBlank (by decide)) ((by decide +kernel : ∀ o ∈ objNatOptions,
        ["route-lookup", "no-proxy-arp", "dns"].find? (mayMatch o) = some o) o hm)
  intro ho t h
  obtain ⟨t', h1, b, n, hb, hn, h2⟩ := key ho h
  unfold objectNatTail
  rw [bind_ok h1]
  exact After.finish (rest := rest) ⟨b, n, hb, hn, h2⟩ _

theorem objOpts_nxt {os : List String} (ho : ∀ o ∈ os, o ∈ objNatOptions) : Nxt mappedKs os := by
  refine nxt_of_mem (L := objNatOptions) ?_ (by decide +kernel)
  intro w hw
  exact ho w (List.mem_of_mem_head? hw)

theorem objSvc_nxt {sw os : List String} {v : Option NatCmd.ObjService} (hv : ObjSvcWords sw v)
    (ho : ∀ o ∈ os, o ∈ objNatOptions) : Nxt mappedKs (sw ++ os) := by
  cases hv with
  | none => exact objOpts_nxt ho
  | service p a b hp ha hb => exact nxt_of_mem (L := ["service"]) (by simp) (by decide +kernel)
  | dns => exact nxt_of_mem (L := ["dns"]) (by simp) (by decide +kernel)

theorem objSvc_read (hg : GuardOk g) {rest : Text} {sw os : List String} {v : Option NatCmd.ObjService}
    (hv : ObjSvcWords sw v) (ho : ∀ o ∈ os, o ∈ objNatOptions) (hd : v = none → os.head? ≠ some "dns") {t : Text}
    (h : AftE (LineEnd rest) (sw ++ os) t) :
    ∃ t', Peg.opt (ws >>= fun _ => objectNatService g) t = .ok v t' ∧ AftE (LineEnd rest) os t' := by
  have hE := lineEnd_ok (g := g) rest
  cases hv with
  | none =>
    refine ⟨t, ?_, h⟩
    apply (h.halts (ks := ["service", "dns"]) hg hE ?_ (by decide)).opt
    · intro r hr
      unfold objectNatService
      rw [alt_fail (bind_fail (hr _ (by simp)))]
      exact bind_fail (hr _ (by simp))
    · refine nxt_of_mem (L := ["route-lookup", "no-proxy-arp"]) ?_ (by decide +kernel)
      intro w hw
      have h1 := ho w (List.mem_of_mem_head? hw)
      have h2 : w ≠ "dns" := by rintro rfl; exact hd rfl (by simpa using hw)
      simp only [objNatOptions, List.mem_cons, List.not_mem_nil, or_false] at h1 ⊢
      rcases h1 with h1 | h1 | h1
      · exact Or.inl h1
      · exact Or.inr h1
      · exact absurd h1 h2
  | service p a b hp ha hb =>
    obtain ⟨t1, h1, s1⟩ := AftE.blanks (w := "service") (wl := p :: a :: b :: os) h (kwWord (by decide))
    obtain ⟨t2, s2, f2⟩ := kw_stepE hg hE s1 (by decide) (mem_word (by decide) hp)
    obtain ⟨t3, rfl, e3, s3⟩ := s2.word hE
    obtain ⟨t4, h4, s4⟩ := s3.blanks ha.word
    obtain ⟨t5, rfl, e5, s5⟩ := s4.word hE
    obtain ⟨t6, h6, s6⟩ := s5.blanks hb.word
    obtain ⟨t7, rfl, e7, s7⟩ := s6.word hE
    refine ⟨t7, opt_ok ?_, s7⟩
    rw [bind_ok h1]
    unfold objectNatService
    apply alt_ok
    rw [f2, bind_ok (oneOf_word hg e3 (kwNoBlank (by decide)) ((by decide +kernel : ∀ o ∈ ["tcp", "udp"],
        ["tcp", "udp"].find? (mayMatch o) = some o) p hp)), bind_ok h4, bind_ok (port_read hg ha e5), bind_ok h6,
      bind_ok (port_read hg hb e7)]
    rfl
  | dns =>
    obtain ⟨t1, h1, s1⟩ := AftE.blanks (w := "dns") (wl := os) h (kwWord (by decide))
    obtain ⟨t2, rfl, e2, s2⟩ := s1.word hE
    refine ⟨t2, opt_ok ?_, s2⟩
    rw [bind_ok h1]
    unfold objectNatService
    rw [alt_fail (bind_fail (tok_no hg (noBlank_of_decide (by decide)) e2 (by decide))),
      bind_ok (tok_self hg (by decide) e2)]
    rfl

theorem objectNat_read {s : St} (he : s.env.WF) {nw : List String} {n : NatCmd.ObjNat} (h : ObjNatWords s nw n) {t : Text}
    (hl : Line nw t) (rest : Text) : objectNat s (t ++ rest) = .ok n rest := by
  have hg := he.guardOk
  have hE := lineEnd_ok (g := s.env.guard) rest
  have hs := staE_line (rest := rest) hl
  unfold objectNat
  cases h with
  | dynamic p r m mw os n f hp hm ho =>
    obtain ⟨⟨t1, h1, s1⟩, -⟩ := objNatHead_read he hE hp (by decide) hm hs (objOpts_nxt ho)
    apply alt_ok
    rw [bind_ok h1]
    simp only
    rw [bind_ok (objOpts_read hg ho s1)]
    rfl
  | static p r m mw sw os n f v hp hm hv ho hd =>
    obtain ⟨⟨t1, h1, s1⟩, hno⟩ := objNatHead_read he hE hp (by decide) hm hs (objSvc_nxt hv ho)
    obtain ⟨t2, h2, s2⟩ := objSvc_read hg hv ho hd s1
    rw [alt_fail (bind_fail (hno _ (by decide) (by decide))), bind_ok h1]
    simp only
    rw [bind_ok h2, bind_ok (objOpts_read hg ho s2)]
    rfl

/-! ## twice NAT -/

theorem RealWord.word {e : Env} (he : e.WF) {w : String} {n : NatCmd.Node'} (h : RealWord e w n) : Word w := by
  cases h with
  | name w h hn => exact hn.word he
  | any _ => exact kwWord (by decide)

theorem realNode_read {s : St} (he : s.env.WF) (hE : EndOk s.env.guard E) {w w' : String} {n : NatCmd.Node'}
    (h : RealWord s.env w n) {wl : List String} {t : Text} (hs : StaE E (w :: w' :: wl) t) (hw' : Word w') :
    ∃ t', realNode s t = .ok n t' ∧ AftE E (w' :: wl) t' := by
  have hg := he.guardOk
  have ww := h.word he
  obtain ⟨t1, rfl, e1, s1⟩ := hs.word hE
  obtain ⟨t2, h2, s2⟩ := s1.blanks hw'
  refine ⟨t1, ?_, s1⟩
  have no1 : (∀ v, ¬ Known s.env.netObjs w v) → ahead (do
        let _ ← refer s.env.guard wsOrNl s.env.netObjs
        ws) (w.toList ++ t1) = .fail := fun h => ahead_fail (bind_fail (refer_unknown hg he.netObjs ww.noBlank h e1))
  have no2 : (∀ v, ¬ Known s.env.netGroups w v) → ahead (do
        let _ ← refer s.env.guard wsOrNl s.env.netGroups
        ws) (w.toList ++ t1) = .fail := fun h => ahead_fail (bind_fail (refer_unknown hg he.netGroups ww.noBlank h e1))
  unfold realNode
  cases h with
  | name w h hn =>
    cases hn with
    | object hk =>
      have hr := refer_known hg he.netObjs hk e1
      apply alts_ok
      rw [bind_ok (ahead_ok (a := ()) (r := t2) (by rw [bind_ok hr]; exact h2)), bind_ok hr]
      rfl
    | group ho hk =>
      have hr := refer_known hg he.netGroups hk e1
      rw [alts_fail (bind_fail (no1 ho))]
      apply alts_ok
      rw [bind_ok (ahead_ok (a := ()) (r := t2) (by rw [bind_ok hr]; exact h2)), bind_ok hr]
      rfl
  | any hf =>
    rw [alts_fail (bind_fail (no1 hf.1)), alts_fail (bind_fail (no2 hf.2))]
    apply alts_ok
    rw [bind_ok (tok_self hg (by decide) e1)]
    rfl

theorem staticMapped_first {e : Env} (he : e.WF) {mw : List String} {n : NatCmd.Node'} (h : StaticMapped e mw n) :
    ∃ w wl, mw = w :: wl ∧ Word w := by
  cases h with
  | name w h hn => exact ⟨_, _, rfl, hn.word he⟩
  | interface ws h => obtain ⟨-, rfl | rfl⟩ := h.first <;> exact ⟨_, _, rfl, kwWord (by decide)⟩
  | any _ => exact ⟨_, _, rfl, kwWord (by decide)⟩

theorem mappedNode_read {s : St} (he : s.env.WF) (hE : EndOk s.env.guard E) {mw wl : List String} {n : NatCmd.Node'}
    (h : StaticMapped s.env mw n) {t : Text} (hs : StaE E (mw ++ wl) t) (hn : mw = ["interface"] → Nxt ["ipv6"] wl) :
    ∃ t', mappedNode s t = .ok n t' ∧ AftE E wl t' := by
  have hg := he.guardOk
  unfold mappedNode
  cases h with
  | name w h hw =>
    obtain ⟨t1, rfl, e1, s1⟩ := StaE.word (wl := wl) hE hs
    exact ⟨t1, alts_ok (by rw [bind_ok (netRef_read he hw e1)]; rfl), s1⟩
  | interface _ h =>
    obtain ⟨fr, hw⟩ := h.first
    obtain ⟨x, t2, h2, s2⟩ : ∃ x t', fallback s.env.guard t = .ok x t' ∧ AftE E wl t' := by
      cases h with
      | v4 hf =>
        obtain ⟨t', h⟩ := (fallback_read hg hE (hn rfl)).1 hs
        exact ⟨_, t', h⟩
      | v6 hf =>
        obtain ⟨t1, rfl, e1, s1⟩ := StaE.word (w := "interface") (wl := "ipv6" :: wl) hE hs
        obtain ⟨t2, h2, s2⟩ := s1.blanks (kwWord (by decide))
        obtain ⟨t3, rfl, e3, s3⟩ := s2.word hE
        refine ⟨⟨some none, true⟩, t3, ?_, s3⟩
        unfold fallback
        rw [bind_ok (tok_self hg (by decide) e1), bind_ok (opt_ok (a := "ipv6") (r := t3) (by
          rw [bind_ok h2]; exact tok_self hg (by decide) e3))]
        rfl
    obtain ⟨wl', hwl⟩ : ∃ l, mw ++ wl = "interface" :: l := by rcases hw with rfl | rfl <;> exact ⟨_, rfl⟩
    rw [hwl] at hs
    obtain ⟨t1, rfl, e1, s1⟩ := hs.word hE
    refine ⟨t2, ?_, s2⟩
    rw [alts_fail (bind_fail (netRef_no he (kwWord (by decide)) fr e1))]
    apply alts_ok
    rw [bind_ok h2]
    rfl
  | any fr =>
    obtain ⟨t1, rfl, e1, s1⟩ := StaE.word (wl := wl) hE hs
    refine ⟨t1, ?_, s1⟩
    rw [alts_fail (bind_fail (netRef_no he (kwWord (by decide)) fr e1)), alts_fail (bind_fail (fallback_no hg (by decide) e1))]
    apply alts_ok
    rw [bind_ok (tok_self hg (by decide) e1)]
    rfl

theorem dynMapped_first {e : Env} (he : e.WF) {mw : List String} {n : NatCmd.Node'} {f : Option NatCmd.Fallback}
    (h : DynMapped e mw n f) : ∃ w wl, mw = w :: wl ∧ Word w := by
  cases h with
  | name w h fw f hn hf => exact ⟨_, _, rfl, hn.word he⟩
  | interface ws h => obtain ⟨-, rfl | rfl⟩ := h.first <;> exact ⟨_, _, rfl, kwWord (by decide)⟩
  | pool ws fw h f _ hp hf =>
    obtain ⟨l, rfl⟩ := poolWords_first hp
    exact ⟨_, _, rfl, kwWord (by decide)⟩

theorem mappedDynamic_read {s : St} (he : s.env.WF) (hE : EndOk s.env.guard E) {mw wl : List String} {n : NatCmd.Node'}
    {f : Option NatCmd.Fallback} (h : DynMapped s.env mw n f) {t : Text} (hs : StaE E (mw ++ wl) t) (hn : Nxt mappedKs wl) :
    ∃ t', mappedDynamic s t = .ok (n, f) t' ∧ AftE E wl t' := by
  have hg := he.guardOk
  have hn1 : Nxt ["interface", "ipv6"] wl := nxt_sub hn (by decide)
  unfold mappedDynamic
  cases h with
  | name w h fw f hw hf =>
    obtain ⟨t1, rfl, e1, s1⟩ := StaE.word (wl := fw ++ wl) hE hs
    obtain ⟨t2, h2, s2⟩ := optFallback_read hg hE hf s1 hn1
    exact ⟨t2, alts_ok (by rw [bind_ok (netRef_read he hw e1), bind_ok h2]; rfl), s2⟩
  | interface _ h =>
    obtain ⟨fr, hw⟩ := h.first
    obtain ⟨x, t2, h2, s2⟩ := iface_read hg hE h hs (nxt_sub hn (by decide))
    obtain ⟨wl', hwl⟩ : ∃ l, mw ++ wl = "interface" :: l := by rcases hw with rfl | rfl <;> exact ⟨_, rfl⟩
    rw [hwl] at hs
    obtain ⟨t1, rfl, e1, s1⟩ := hs.word hE
    refine ⟨t2, ?_, s2⟩
    rw [alts_fail (bind_fail (netRef_no he (kwWord (by decide)) fr e1))]
    apply alts_ok
    rw [bind_ok h2]
    rfl
  | pool pw fw h f fr hp hf =>
    rw [List.append_assoc] at hs
    obtain ⟨t2, h2, s2⟩ := pool_read he hE hp hs (nxt_pool_fallback hf hn)
    obtain ⟨t3, h3, s3⟩ := optFallback_read hg hE hf s2 hn1
    obtain ⟨l, rfl⟩ := poolWords_first hp
    obtain ⟨t1, rfl, e1, s1⟩ := StaE.word (wl := l ++ (fw ++ wl)) hE hs
    refine ⟨t3, ?_, s3⟩
    rw [alts_fail (bind_fail (netRef_no he (kwWord (by decide)) fr e1)),
      alts_fail (bind_fail (fallback_no hg (by decide) e1))]
    apply alts_ok
    rw [bind_ok h2, bind_ok h3]
    rfl

theorem natSrc_read {s : St} (he : s.env.WF) (hE : EndOk s.env.guard E) {sw wl : List String} {c : NatCmd.SrcSpec}
    (h : SrcWords s.env sw c) {t : Text} (hs : StaE E (sw ++ wl) t) (hn : Nxt mappedKs wl) :
    ∃ t', natSrc s t = .ok c t' ∧ AftE E wl t' := by
  have hg := he.guardOk
  unfold natSrc
  cases h with
  | dynamic r mw rn mn f hr hm =>
    obtain ⟨w0, l0, hm0, hw0⟩ := dynMapped_first he hm
    obtain ⟨t1, s1, f1⟩ := kw_stepE hg hE (wl := r :: (mw ++ wl)) hs (by decide) (kwWord (k := "dynamic") (by decide))
    obtain ⟨t2, s2, f2⟩ := kw_stepE hg hE s1 (by decide) (hr.word he)
    rw [hm0] at s2
    obtain ⟨t3, h3, s3⟩ := realNode_read (wl := l0 ++ wl) he hE hr s2 hw0
    obtain ⟨t4, h4, s4⟩ := s3.blanks hw0
    obtain ⟨t5, h5, s5⟩ := mappedDynamic_read he hE hm (by rw [hm0]; exact s4) hn
    refine ⟨t5, alt_ok ?_, s5⟩
    rw [f1, f2, bind_ok h3, bind_ok h4, bind_ok h5]
    rfl
  | static r mw rn mn hr hm =>
    obtain ⟨w0, l0, hm0, hw0⟩ := staticMapped_first he hm
    obtain ⟨t1, s1, f1⟩ := kw_stepE hg hE (wl := r :: (mw ++ wl)) hs (by decide) (kwWord (k := "static") (by decide))
    obtain ⟨t2, s2, f2⟩ := kw_stepE hg hE s1 (by decide) (hr.word he)
    rw [hm0] at s2
    obtain ⟨t3, h3, s3⟩ := realNode_read (wl := l0 ++ wl) he hE hr s2 hw0
    obtain ⟨t4, h4, s4⟩ := s3.blanks hw0
    obtain ⟨t5, h5, s5⟩ := mappedNode_read (wl := wl) he hE hm (by rw [hm0]; exact s4) (fun _ => nxt_sub hn (by decide))
    refine ⟨t5, ?_, s5⟩
    rw [alt_fail (by rw [f1]; exact bind_fail (tok_noE hg hE s1 (by decide) (by decide))), f1, f2, bind_ok h3, bind_ok h4, bind_ok h5]
    rfl

theorem natDst_read {s : St} (he : s.env.WF) (hE : EndOk s.env.guard E) {dw wl : List String}
    {d : Option (NatCmd.Node' × NatCmd.Node')} (h : DstWords s.env dw d) {t : Text} (hs : AftE E (dw ++ wl) t)
    (hn : Nxt ["destination"] wl) :
    ∃ t', Peg.opt (ws >>= fun _ => natDst s) t = .ok d t' ∧ AftE E wl t' := by
  have hg := he.guardOk
  cases h with
  | none => exact ⟨t, (hs.halts hg hE hn (by decide)).opt (fun r h => bind_fail (h _ (by simp))), hs⟩
  | some mw w mn h hm hw ha =>
    obtain ⟨w0, l0, hm0, hw0⟩ := staticMapped_first he hm
    have hs' : AftE E ("destination" :: "static" :: (mw ++ (w :: wl))) t := by simpa using hs
    obtain ⟨t0, h0, s0⟩ := hs'.blanks (kwWord (by decide))
    obtain ⟨t1, s1, f1⟩ := kw_stepE hg hE s0 (by decide) (kwWord (k := "static") (by decide))
    rw [hm0] at s1
    obtain ⟨t2, s2, f2⟩ := kw_stepE hg hE (wl := l0 ++ (w :: wl)) s1 (by decide) hw0
    have ww := hw.word he
    obtain ⟨t3, h3, s3⟩ := mappedNode_read (wl := w :: wl) he hE hm (by rw [hm0]; exact s2) (fun he' => by
      intro v hv
      simp only [List.head?_cons, Option.mem_some_iff] at hv
      subst hv
      exact ⟨ww, fun k hk => by
        simp only [List.mem_singleton] at hk
        subst hk
        exact apart_mayMatch (by decide) (by decide) (ha he')⟩)
    obtain ⟨t4, h4, s4⟩ := s3.blanks ww
    obtain ⟨t5, rfl, e5, s5⟩ := s4.word hE
    refine ⟨t5, opt_ok ?_, s5⟩
    rw [bind_ok h0]
    unfold natDst
    rw [f1, f2, bind_ok h3, bind_ok h4, bind_ok (netRef_read he hw e5)]
    rfl

/-- The service clause. -/
def natSvc (s : St) : P (NatCmd.Svc × NatCmd.Svc) := do
  let _ ← tok s.env.guard "service"
  ws
  let a ← refer s.env.guard wsOrNl s.env.svcObjs
  ws
  let b ← refer s.env.guard wsOrNl s.env.svcObjs
  pure (svcObject s a, svcObject s b)

theorem svcName_read {s : St} (he : s.env.WF) {w : String} {x : NatCmd.Svc} (h : SvcName s w x) :
    Word w ∧ ∃ o, Known s.env.svcObjs w o ∧ svcObject s o = x := by
  cases h with
  | mk o n v hk hf =>
    refine ⟨known_word he.svcObjs hk, o, hk, ?_⟩
    unfold svcObject
    rw [hf]

theorem natSvc_read {s : St} (he : s.env.WF) (hE : EndOk s.env.guard E) {vw wl : List String}
    {v : Option (NatCmd.Svc × NatCmd.Svc)} (h : TwiceSvc s vw v) {t : Text} (hs : AftE E (vw ++ wl) t)
    (hn : Nxt ["service"] wl) :
    ∃ t', Peg.opt (ws >>= fun _ => natSvc s) t = .ok v t' ∧ AftE E wl t' := by
  have hg := he.guardOk
  cases h with
  | none => exact ⟨t, (hs.halts hg hE hn (by decide)).opt (fun r h => bind_fail (h _ (by simp))), hs⟩
  | some a b x y ha hb =>
    obtain ⟨wa, o, ka, ea⟩ := svcName_read he ha
    obtain ⟨wb, o', kb, eb⟩ := svcName_read he hb
    obtain ⟨t0, h0, s0⟩ := AftE.blanks (w := "service") (wl := a :: b :: wl) hs (kwWord (by decide))
    obtain ⟨t1, s1, f1⟩ := kw_stepE hg hE s0 (by decide) wa
    obtain ⟨t2, rfl, e2, s2⟩ := s1.word hE
    obtain ⟨t3, h3, s3⟩ := s2.blanks wb
    obtain ⟨t4, rfl, e4, s4⟩ := s3.word hE
    refine ⟨t4, opt_ok ?_, s4⟩
    rw [bind_ok h0]
    unfold natSvc
    rw [f1, bind_ok (refer_known hg he.svcObjs ka e2), bind_ok h3, bind_ok (refer_known hg he.svcObjs kb e4), ea, eb]
    rfl

/-- The position. -/
def natPos (g : Guard) : P Unit := do
  let _ ← tok g "after-"
  let _ ← oneOf g ["object", "auto"]
  let _ ← opt (do
    ws
    intP)
  pure ()

theorem natPos_read (ng : NameGuardSym g) (hg : GuardOk g) (hE : EndOk g E) {pw wl : List String} {b : Bool}
    (h : PosWords pw b) {t : Text} (hs : AftE E (pw ++ "source" :: wl) t) :
    ∃ p t', Peg.opt (ws >>= fun _ => natPos g) t = .ok p t' ∧ p.isSome = b ∧ AftE E ("source" :: wl) t' := by
  have wsrc : Word "source" := kwWord (by decide)
  have tokA : ∀ (k : String) (t : Text), k ∈ ["after-auto", "after-object"] → EndOfWord t →
      ∃ (x : String) (u : Text), tok g "after-" (k.toList ++ t) = .ok "after-" u ∧ oneOf g ["object", "auto"] u = .ok x t := by
    intro k t hk ht
    have e : ∃ x : String, k.toList = "after-".toList ++ x.toList ∧ x ∈ ["object", "auto"] := by
      simp only [List.mem_cons, List.not_mem_nil, or_false] at hk
      rcases hk with rfl | rfl
      · exact ⟨"auto", by decide, by decide⟩
      · exact ⟨"object", by decide, by decide⟩
    obtain ⟨x, hx, hm⟩ := e
    have h1 : tok g "after-" (k.toList ++ t) = .ok "after-" (x.toList ++ t) := by
      unfold tok token
      have : "after-".toList.isPrefixOf (k.toList ++ t) = true := by
        rw [List.isPrefixOf_iff_prefix, hx]; exact ⟨x.toList ++ t, by simp⟩
      rw [if_pos this]
      have hd : (k.toList ++ t).drop "after-".toList.length = x.toList ++ t := by
        rw [hx, List.append_assoc, List.drop_left]
      simp only [hd]
      rw [if_pos (ng "after-" _ ⟨'-', by decide, by decide⟩)]
    refine ⟨x, _, h1, ?_⟩
    exact oneOf_word hg ht (kwNoBlank (by decide)) ((by decide +kernel : ∀ o ∈ ["object", "auto"],
        ["object", "auto"].find? (mayMatch o) = some o) x hm)
  have wk : ∀ k ∈ ["after-auto", "after-object"], Word k := fun k hk => mem_word (by decide) hk
  cases h with
  | none =>
    refine ⟨none, t, ?_, rfl, hs⟩
    obtain ⟨t1, h1, s1⟩ := AftE.blanks (w := "source") (wl := wl) hs wsrc
    apply opt_fail
    rw [bind_ok h1]
    exact bind_fail (tok_noE hg hE s1 (by decide) (by decide))
  | after k hk =>
    obtain ⟨t1, h1, s1⟩ := AftE.blanks (w := k) (wl := "source" :: wl) hs (wk k hk)
    obtain ⟨t2, rfl, e2, s2⟩ := s1.word hE
    refine ⟨some (), t2, opt_ok ?_, rfl, s2⟩
    rw [bind_ok h1]
    obtain ⟨t3, h3, s3⟩ := s2.blanks wsrc
    have hno : Peg.opt (ws >>= fun _ => intP) t2 = .ok none t2 := by
      apply opt_fail
      rw [bind_ok h3]
      obtain ⟨t4, rfl, -⟩ := s3
      exact intP_fail (by intro c hc; simp at hc; subst hc; decide)
    obtain ⟨x, u, a1, a2⟩ := tokA k t2 hk e2
    unfold natPos
    rw [bind_ok a1, bind_ok a2, bind_ok hno]
    rfl
  | line k n hk hd =>
    have wn : Word n := digitText_word hd
    obtain ⟨t1, h1, s1⟩ := AftE.blanks (w := k) (wl := n :: "source" :: wl) hs (wk k hk)
    obtain ⟨t2, rfl, e2, s2⟩ := s1.word hE
    obtain ⟨t3, h3, s3⟩ := s2.blanks wn
    obtain ⟨t4, rfl, e4, s4⟩ := s3.word hE
    refine ⟨some (), t4, opt_ok ?_, rfl, s4⟩
    rw [bind_ok h1]
    have hyes : Peg.opt (ws >>= fun _ => intP) t2 = .ok (some n.toList) t4 := by
      apply opt_ok
      rw [bind_ok h3]
      exact intP_digits hd.1 hd.2 e4
    obtain ⟨x, u, a1, a2⟩ := tokA k t2 hk e2
    unfold natPos
    rw [bind_ok a1, bind_ok a2, bind_ok hyes]
    rfl


/-! ## the whole command -/

theorem twiceOpts_nxt {ks os : List String} (ho : ∀ o ∈ os, o ∈ twiceOptions)
    (hd : (twiceOptions.all (fun w => (!w.toList.isEmpty && w.toList.all (fun c => !isBlank c)) && ks.all (fun k => !mayMatch w k))) = true) :
    Nxt ks os :=
  nxt_of_mem (L := twiceOptions) (fun w hw => ho w (List.mem_of_mem_head? hw)) hd

theorem natOption_flag (hg : GuardOk g) {o : String} (ho : o ∈ twiceOptions) {t : Text} (ht : EndOfWord t) :
    natOption g (o.toList ++ t) = .ok (o, none) t := by
  unfold natOption
  by_cases hr : o = "route-lookup"
  · subst hr
    rw [alts_fail (bind_fail (oneOf_all_fail (fun k hk => tok_no hg (kwNoBlank (by decide) k hk) ht
        ((by decide +kernel : ∀ k ∈ ["net-to-net", "dns", "unidirectional", "no-proxy-arp", "inactive"],
          mayMatch "route-lookup" k = false) k hk)))),
      alts_fail (bind_fail (tok_no hg (noBlank_of_decide (by decide)) ht (by decide +kernel)))]
    apply alts_ok
    rw [bind_ok (tok_self hg (by decide) ht)]
    rfl
  · apply alts_ok
    rw [bind_ok (oneOf_word hg ht (kwNoBlank (by decide)) ((by decide +kernel : ∀ o ∈ twiceOptions, o ≠ "route-lookup" →
      ["net-to-net", "dns", "unidirectional", "no-proxy-arp", "inactive"].find? (mayMatch o) = some o) o ho hr))]
    rfl

theorem natOption_no {t : Text} (h : ∀ k ∈ "description" :: natKw, tok g k t = .fail) : natOption g t = .fail := by
  unfold natOption
  rw [alts_fail (bind_fail (oneOf_all_fail (fun k hk => h k ((by decide : ∀ k ∈ ["net-to-net", "dns", "unidirectional",
      "no-proxy-arp", "inactive"], k ∈ "description" :: natKw) k hk)))),
    alts_fail (bind_fail (h _ (by decide))), alts_fail (bind_fail (h _ (by decide)))]
  rfl

/-- What the end of the line adds to the options. -/
structure TailOk (g : Guard) (E : Text → Prop) (tl : List (String × Option String)) (rest : Text) : Prop where
  endOk : EndOk g E
  read : ∀ t, E t → ∃ t', many (ws >>= fun _ => natOption g) t = .ok tl t' ∧
    ∀ {β : Type} (f : P β), (Peg.opt ws >>= fun _ => nl >>= fun _ => f) t' = f rest

theorem finish_text {b n rest : Text} (hb : Blanks b) (hn : n = ['\n'] ∨ n = ['\r', '\n']) {β : Type} (f : P β) :
    (Peg.opt ws >>= fun _ => nl >>= fun _ => f) (b ++ (n ++ rest)) = f rest := by
  have hh : ∀ c ∈ (n ++ rest).head?, c ≠ ' ' ∧ c ≠ '\t' := by
    rcases hn with rfl | rfl <;> (intro c hc; simp at hc; subst hc; decide)
  by_cases hne : b = []
  · subst hne
    rw [List.nil_append, bind_ok (opt_fail (ws_fail hh)), bind_ok (nl_ok hn)]
  · rw [bind_ok (opt_ok (ws_ok hne hb hh)), bind_ok (nl_ok hn)]

theorem lineTail (rest : Text) : TailOk g (LineEnd rest) [] rest := by
  refine ⟨lineEnd_ok rest, ?_⟩
  rintro t ⟨b, n, hb, hn, rfl⟩
  refine ⟨_, many_fail ?_, fun f => finish_text hb hn f⟩
  have hh : ∀ c ∈ (n ++ rest).head?, c ≠ ' ' ∧ c ≠ '\t' := by
    rcases hn with rfl | rfl <;> (intro c hc; simp at hc; subst hc; decide)
  by_cases hne : b = []
  · subst hne
    exact bind_fail (ws_fail hh)
  · rw [bind_ok (ws_ok hne hb hh)]
    apply natOption_no
    intro k hk
    exact tok_at_nl (kwNoBlank (l := "description" :: natKw) (by decide) k hk)
      ((by decide : ∀ k ∈ "description" :: natKw, k.toList ≠ []) k hk) hn

theorem descrTail (hg : GuardOk g) (d rest : Text) :
    TailOk g (DescrEnd d rest) [("description", some (String.ofList d))] rest := by
  refine ⟨descrEnd_ok hg d rest, ?_⟩
  rintro t ⟨b0, b, h0, hb0, h1, hb1, hd, hh, rfl⟩
  refine ⟨'\n' :: rest, many_ok (r := '\n' :: rest) ?_ ?_ (many_fail (bind_fail (ws_fail (by
    intro c hc; simp at hc; subst hc; decide)))), fun f => finish_text (b := []) (n := ['\n']) (by intro c hc; cases hc) (Or.inl rfl) f⟩
  · rw [bind_ok (ws_ok h0 hb0 (by intro c hc; simp at hc; subst hc; decide))]
    have e1 : EndOfWord (b ++ (d ++ '\n' :: rest)) := blanks_end h1 hb1
    have hh' : ∀ c ∈ (d ++ '\n' :: rest).head?, c ≠ ' ' ∧ c ≠ '\t' := by
      cases d with
      | nil => intro c hc; simp at hc; subst hc; decide
      | cons x d => intro c hc; exact hh c (by simpa using hc)
    unfold natOption
    rw [alts_fail (bind_fail (oneOf_all_fail (fun k hk => tok_no hg (kwNoBlank (by decide) k hk) e1
        ((by decide +kernel : ∀ k ∈ ["net-to-net", "dns", "unidirectional", "no-proxy-arp", "inactive"],
          mayMatch "description" k = false) k hk))))]
    apply alts_ok
    rw [bind_ok (tok_self hg (by decide) e1), bind_ok (ws_ok h1 hb1 hh'), bind_ok (toeol_read hd rest)]
    rfl
  · have := List.length_pos_iff.2 h0
    simp only [List.length_append, List.length_cons]
    omega

theorem twiceOpts_read (hg : GuardOk g) {tl : List (String × Option String)} {rest : Text} (hE : TailOk g E tl rest) :
    ∀ {os : List String}, (∀ o ∈ os, o ∈ twiceOptions) → ∀ {t : Text}, AftE E os t →
      ∃ t', many (ws >>= fun _ => natOption g) t = .ok (os.map (fun o => (o, none)) ++ tl) t' ∧
        ∀ {β : Type} (f : P β), (Peg.opt ws >>= fun _ => nl >>= fun _ => f) t' = f rest := by
  intro os
  induction os with
  | nil => intro _ t h; exact hE.read t h
  | cons o os ih =>
    intro ho t h
    have hm : o ∈ twiceOptions := ho o (by simp)
    have ww : Word o := mem_word (by decide) hm
    obtain ⟨t1, h1, s1⟩ := h.blanks ww
    obtain ⟨t2, rfl, e2, s2⟩ := s1.word hE.endOk
    obtain ⟨t3, h3, s3⟩ := ih (fun o ho' => ho o (by simp [ho'])) s2
    refine ⟨t3, many_ok (r := t2) ?_ (aftE_length h h1 ww) h3, s3⟩
    rw [bind_ok h1]
    exact natOption_flag hg hm e2

/-- The first alternative of `nat`. -/
def natTwice (s : St) : P Item := do
  let _ ← tok s.env.guard "nat"
  ws
  let i ← natInterfaces s
  let pos ← opt (do
    ws
    natPos s.env.guard)
  ws
  let src ← natSrc s
  let dst ← opt (do
    ws
    natDst s)
  let sv ← opt (do
    ws
    natSvc s)
  let l ← many (do
    ws
    natOption s.env.guard)
  let _ ← opt ws
  nl
  let n ← act (NatCmd.twiceNat { iface := some i, pos := pos.isSome, src := src, dst := dst, service := sv, options := l })
  pure (natItem n)

/-- The second alternative of `nat`. -/
def natPix (s : St) : P Item := do
  let _ ← tok s.env.guard "nat"
  ws
  chr '('
  let _ ← interfaceRef s
  chr ')'
  let _ ← toeol
  pure .nothing

theorem nat_alts (s : St) : nat s = alt (natTwice s) (natPix s) := rfl

theorem dst_nxt {s : St} {dw vw os : List String} {d : Option (NatCmd.Node' × NatCmd.Node')}
    {v : Option (NatCmd.Svc × NatCmd.Svc)} (hd : DstWords s.env dw d) (hv : TwiceSvc s vw v) (ho : ∀ o ∈ os, o ∈ twiceOptions) :
    Nxt mappedKs (dw ++ (vw ++ os)) ∧ Nxt ["destination"] (vw ++ os) ∧ Nxt ["service"] os := by
  refine ⟨?_, ?_, twiceOpts_nxt ho (by decide +kernel)⟩
  · cases hd with
    | some mw w mn h hm hw ha => exact nxt_of_mem (L := ["destination"]) (by simp) (by decide +kernel)
    | none =>
      cases hv with
      | some a b x y ha hb => exact nxt_of_mem (L := ["service"]) (by simp) (by decide +kernel)
      | none => exact twiceOpts_nxt ho (by decide +kernel)
  · cases hv with
    | some a b x y ha hb => exact nxt_of_mem (L := ["service"]) (by simp) (by decide +kernel)
    | none => exact twiceOpts_nxt ho (by decide +kernel)

/-- A twice NAT command with any of the two ends. -/
theorem natTwice_read {s : St} (he : s.env.WF) (ng : NameGuardSym s.env.guard) {tl : List (String × Option String)} {rest : Text}
    (hE : TailOk s.env.guard E tl rest) {nw : List String} {c : NatCmd.Cmd} (h : TwiceWords s nw c)
    {n : Option NatCmd.Nat'} (hn : NatCmd.twiceNat { c with options := c.options ++ tl } = .ok n) {t : Text} (hs : StaE E nw t) :
    nat s t = .ok (natItem n) rest := by
  have hg := he.guardOk
  rw [nat_alts]
  apply alt_ok
  cases h with
  | mk p r m pw sw dw vw os pos src dst svc hp hpw hsw hdw hvw ho =>
    obtain ⟨n1, n2, n3⟩ := dst_nxt hdw hvw ho
    obtain ⟨l0, hl0⟩ : ∃ l, sw = "source" :: l := by cases hsw <;> exact ⟨_, rfl⟩
    obtain ⟨t1, s1, f1⟩ := kw_stepE hg hE.endOk hs (by decide) hp.1
    obtain ⟨t2, rfl, e2, s2⟩ := s1.word hE.endOk
    obtain ⟨q, t3, h3, hq, s3⟩ := natPos_read (wl := l0 ++ (dw ++ (vw ++ os))) ng hg hE.endOk hpw (by
      rw [hl0] at s2; exact s2)
    obtain ⟨t4, h4, s4⟩ := s3.blanks (kwWord (by decide))
    obtain ⟨t5, h5, s5⟩ := natSrc_read he hE.endOk hsw (wl := dw ++ (vw ++ os)) (by rw [hl0]; exact s4) n1
    obtain ⟨t6, h6, s6⟩ := natDst_read he hE.endOk hdw s5 n2
    obtain ⟨t7, h7, s7⟩ := natSvc_read he hE.endOk hvw s6 n3
    obtain ⟨t8, h8, s8⟩ := twiceOpts_read hg hE ho s7
    unfold natTwice
    rw [f1, bind_ok (natInterfaces_read hg hp t2), bind_ok h3, bind_ok h4, bind_ok h5, bind_ok h6, bind_ok h7, bind_ok h8, s8,
      hq, bind_ok (act_ok hn _)]
    rfl

theorem nat_read {s : St} (he : s.env.WF) (ng : NameGuardSym s.env.guard) {nw : List String} {c : NatCmd.Cmd}
    (h : TwiceWords s nw c) {n : Option NatCmd.Nat'} (hn : NatCmd.twiceNat c = .ok n) {l : Text} (hl : Line nw l) (rest : Text) :
    nat s (l ++ rest) = .ok (natItem n) rest :=
  natTwice_read he ng (lineTail rest) h (by simpa using hn) (staE_line hl)

theorem natDescr_read {s : St} (he : s.env.WF) (ng : NameGuardSym s.env.guard) {nw : List String} {c : NatCmd.Cmd}
    (h : TwiceWords s nw c) {l b d : Text} (hb : b ≠ []) (hb' : Blanks b) (hd : '\n' ∉ d)
    (hh : ∀ c ∈ d.head?, c ≠ ' ' ∧ c ≠ '\t') {n : Option NatCmd.Nat'}
    (hn : NatCmd.twiceNat { c with options := c.options ++ [("description", some (String.ofList d))] } = .ok n)
    (hl : Spaced (nw ++ ["description"]) l) (rest : Text) :
    nat s (l ++ (b ++ (d ++ ['\n'])) ++ rest) = .ok (natItem n) rest :=
  natTwice_read he ng (descrTail he.guardOk d rest) h hn
    (staE_descr hl (by cases h; simp) hb hb' hd hh)

/-- The form of PIX and FWSM: one interface. -/
theorem natPix_read {s : St} (he : s.env.WF) (hp : PlainIfaces s) {w : String} {i : Ifc.Intf} (hk : Known s.ifaces w i)
    {b u : Text} (hb : b ≠ []) (hb' : Blanks b) (hu : '\n' ∉ u) (rest : Text) :
    nat s ("nat".toList ++ (b ++ ('(' :: (w.toList ++ ')' :: (u ++ '\n' :: rest))))) = .ok .nothing ('\n' :: rest) := by
  have hg := he.guardOk
  have cc : ∀ (c : Char) (t : Text), chr c (c :: t) = .ok () t := by intro c t; simp [chr]
  have e1 : EndOfWord (b ++ ('(' :: (w.toList ++ ')' :: (u ++ '\n' :: rest)))) := blanks_end hb hb'
  have hw : ws (b ++ ('(' :: (w.toList ++ ')' :: (u ++ '\n' :: rest)))) = .ok () ('(' :: (w.toList ++ ')' :: (u ++ '\n' :: rest))) :=
    ws_ok hb hb' (by intro c hc; simp at hc; subst hc; decide)
  have hm : w ∈ keys s.ifaces := by rw [keys_eq, ← dGet_isSome_iff, hk]; rfl
  have hid := (internalIds_word (guard := s.env.guard) (stop := fun d => d == ')') (names := keys s.ifaces) (w := w)
      (s := ')') (rest := u ++ '\n' :: rest) (fun n d t hd => by
        have : d = ')' := by simpa using hd
        subst this; exact hg.passes n _ t (by decide))
      (fun n hn' d hd => by
        have : ∃ p ∈ s.ifaces, p.1 = n := by simpa [keys] using hn'
        obtain ⟨p, hp', rfl⟩ := this
        have := (hp p hp').2
        simp only [beq_eq_false_iff_ne]
        rintro rfl; exact this hd) (by simp)).1 hm
  have hr : interfaceRef s (w.toList ++ ')' :: (u ++ '\n' :: rest)) = .ok i (')' :: (u ++ '\n' :: rest)) := by
    unfold interfaceRef
    simp only [hid, hk]
  have hno : natInterfaces s ('(' :: (w.toList ++ ')' :: (u ++ '\n' :: rest))) = .fail := by
    unfold natInterfaces
    rw [bind_ok (cc _ _)]
    have hc : ∀ a : List Char, ',' ∉ a → chr ',' (a ++ ')' :: (u ++ '\n' :: rest)) = .fail := by
      intro a ha
      cases a with
      | nil => simp [chr]
      | cons d a => simp only [List.mem_cons, not_or] at ha; simp [chr, Ne.symm ha.1]
    have hwc : ',' ∉ w.toList := by
      have : ∃ p ∈ s.ifaces, p.1 = w := by simpa [keys] using hm
      obtain ⟨p, hp', rfl⟩ := this
      exact (hp p hp').1
    cases hx : tok s.env.guard "any" (w.toList ++ ')' :: (u ++ '\n' :: rest)) with
    | ok x r =>
      obtain ⟨a, ha, rfl⟩ : ∃ a, w.toList = "any".toList ++ a ∧ r = a ++ ')' :: (u ++ '\n' :: rest) := by
        unfold tok at hx
        cases hy : token s.env.guard (w.toList ++ ')' :: (u ++ '\n' :: rest)) "any" with
        | none => rw [hy] at hx; cases hx
        | some q =>
          rw [hy] at hx
          obtain ⟨rr, hr1, rfl⟩ := token_some hy
          simp only [Res.ok.injEq] at hx
          obtain ⟨a, ha⟩ := prefix_of_word (stop := fun c => c == ')') (by decide) (by decide) hr1
          refine ⟨a, ha.symm, ?_⟩
          rw [← ha, List.append_assoc] at hr1
          rw [← hx.2]
          exact (List.append_cancel_left hr1).symm
      have hi : natIface s (w.toList ++ ')' :: (u ++ '\n' :: rest)) = .ok ⟨"any", none⟩ (a ++ ')' :: (u ++ '\n' :: rest)) := by
        unfold natIface
        apply alt_ok
        rw [bind_ok hx]
        rfl
      rw [bind_ok hi]
      exact bind_fail (hc a (fun h => hwc (by rw [ha]; exact List.mem_append_right _ h)))
    | fail =>
      have hi : natIface s (w.toList ++ ')' :: (u ++ '\n' :: rest)) = .ok ⟨i.alias, i.nameif⟩ (')' :: (u ++ '\n' :: rest)) := by
        unfold natIface
        rw [alt_fail (bind_fail hx), bind_ok hr]
        rfl
      rw [bind_ok hi]
      exact bind_fail (hc [] (by simp))
    | raise e =>
      unfold tok at hx
      split at hx <;> cases hx
  rw [nat_alts]
  rw [alt_fail (by
    unfold natTwice
    rw [bind_ok (tok_self hg (by decide) e1), bind_ok hw]
    exact bind_fail hno)]
  unfold natPix
  rw [bind_ok (tok_self hg (by decide) e1), bind_ok hw, bind_ok (cc _ _), bind_ok hr, bind_ok (cc _ _), bind_ok (toeol_read hu rest)]
  rfl


/-! ## network objects with a NAT line -/

theorem objNatWords_first {s : St} {nw : List String} {a : NatCmd.ObjNat} (h : ObjNatWords s nw a) :
    ∃ p l, nw = "nat" :: p :: l ∧ Word p := by
  cases h with
  | dynamic p r m mw os n f hp hm ho => exact ⟨_, _, rfl, hp.1⟩
  | static p r m mw sw os n f v hp hm hv ho hd => exact ⟨_, _, rfl, hp.1⟩

theorem networkArgs_no (hg : GuardOk g) {t : Text} (ht : EndOfWord t) : networkArgs g ("nat".toList ++ t) = .fail := by
  have no : ∀ k ∈ ["host", "subnet", "range", "fqdn"], tok g k ("nat".toList ++ t) = .fail := fun k hk =>
    tok_no hg (kwNoBlank (l := ["host", "subnet", "range", "fqdn"]) (by decide) k hk) ht
      ((by decide +kernel : ∀ k ∈ ["host", "subnet", "range", "fqdn"], mayMatch "nat" k = false) k hk)
  unfold networkArgs
  rw [alts_fail (bind_fail (no "host" (by decide))), alts_fail (bind_fail (no "subnet" (by decide))),
    alts_fail (bind_fail (no "subnet" (by decide))), alts_fail (bind_fail (no "range" (by decide))),
    alts_fail (bind_fail (no "range" (by decide))), alts_fail (bind_fail (no "fqdn" (by decide)))]
  rfl

theorem objectNetworkNat_read {s : St} (he : s.env.WF) {n : String} {ow nw : List String} {l x y dt rest : Text} {h : List Host}
    {a : NatCmd.ObjNat} {d : Option (List Char)} (hn : IdWord n) (hl : Bare ["object", "network", n] l) (ho : ObjWords ow h)
    (hx : Bare ow x) (ha : ObjNatWords s nw a) (hy : Line nw y) (hd : Descr dt d) (hr : NoSp rest) :
    object s (l ++ (' ' :: (x ++ (' ' :: (y ++ dt)))) ++ rest) = .ok (.netObj n h (NatCmd.objectType ⟨n, some h, some a⟩).2 d,
      { s with env := { s.env with netObjs := enter s.env.netObjs n (.obj n h) } }) rest := by
  have hg := he.guardOk
  have e0 : l ++ (' ' :: (x ++ (' ' :: (y ++ dt)))) ++ rest = l ++ (' ' :: (x ++ (' ' :: (y ++ (dt ++ rest))))) := by simp
  rw [e0]
  obtain ⟨t1, s1, f1⟩ := kw_step hg (sta_of_bare hl (rest := ' ' :: (x ++ (' ' :: (y ++ (dt ++ rest)))))) (by decide)
    (kwWord (k := "network") (by decide))
  obtain ⟨t2, s2, f2⟩ := kw_step hg s1 (by decide) hn.word
  obtain ⟨t3, rfl, e3, s3⟩ := s2.word
  obtain ⟨b, h4, h5⟩ := networkArgs_read hg ho (sta_of_bare hx (rest := ' ' :: (y ++ (dt ++ rest))))
  unfold object
  rw [f1]
  apply alt_ok
  unfold objectNetwork
  simp only []
  rw [f2, bind_ok (objName_read hn e3), bind_ok (opt_ok (a := (b, none)) (r := ' ' :: (y ++ (dt ++ rest))) (by
    rw [bind_ok s3.nl, bind_ok (sp_cons _)]
    apply alt_ok
    rw [bind_ok h4]
    rfl)), bind_ok (opt_ok (a := a) (r := dt ++ rest) (by
      rw [bind_ok (sp_cons _)]
      exact objectNat_read he ha hy _)), bind_ok (descr_read hg hd hr.noDescr)]
  simp only []
  rw [bind_ok (act_ok h5 _), String.ofList_toList]
  simp only [enter]
  by_cases hk : (dGet s.env.netObjs n).isSome
  · simp only [hk, if_true]
    rfl
  · simp only [hk]
    rfl

theorem objectNatOnly_read {s : St} (he : s.env.WF) {n : String} {nw : List String} {l y dt rest : Text}
    {a : NatCmd.ObjNat} {d : Option (List Char)} (hn : IdWord n) (hl : Bare ["object", "network", n] l)
    (ha : ObjNatWords s nw a) (hy : Line nw y) (hd : Descr dt d) (hr : NoSp rest) :
    object s (l ++ (' ' :: (y ++ dt)) ++ rest) = .ok (.netObj n [] (NatCmd.objectType ⟨n, none, some a⟩).2 d,
      { s with env := { s.env with netObjs := enter s.env.netObjs n (.obj n []) } }) rest := by
  have hg := he.guardOk
  have e0 : l ++ (' ' :: (y ++ dt)) ++ rest = l ++ (' ' :: (y ++ (dt ++ rest))) := by simp
  rw [e0]
  obtain ⟨t1, s1, f1⟩ := kw_step hg (sta_of_bare hl (rest := ' ' :: (y ++ (dt ++ rest)))) (by decide)
    (kwWord (k := "network") (by decide))
  obtain ⟨t2, s2, f2⟩ := kw_step hg s1 (by decide) hn.word
  obtain ⟨t3, rfl, e3, s3⟩ := s2.word
  have hna : networkArgs s.env.guard (y ++ (dt ++ rest)) = .fail := by
    obtain ⟨p, q, rfl, -⟩ := objNatWords_first ha
    obtain ⟨t5, h5, e5, -⟩ := (sta_of_line (rest := dt ++ rest) hy).word
    rw [h5]
    exact networkArgs_no hg e5
  unfold object
  rw [f1]
  apply alt_ok
  unfold objectNetwork
  simp only []
  rw [f2, bind_ok (objName_read hn e3), bind_ok (opt_ok (a := (ObjArgs.nat, some a)) (r := dt ++ rest) (by
    rw [bind_ok s3.nl, bind_ok (sp_cons _), alt_fail (bind_fail hna), bind_ok (objectNat_read he ha hy _)]
    rfl)), bind_ok (descr_no_nat hg hd hr), bind_ok (descr_read hg hd hr.noDescr)]
  simp only []
  rw [bind_ok (act_ok (show objAddresses .nat = .ok [] from rfl) _), String.ofList_toList]
  simp only [enter]
  by_cases hk : (dGet s.env.netObjs n).isSome
  · simp only [hk, if_true]
    rfl
  · simp only [hk]
    rfl

end Acltk.FwsmText
