import Verif.Lemmas.AclHost
/-!
# Reading ports, nodes and protocols
-/
namespace Acltk.AclText
open Acltk Acltk.Lookup Acltk.Peg

/-- A token does not match a word that begins differently. -/
theorem noMatch_head {w k : String} {p : Char → Bool} (hw : (w.toList.head?.map p).getD false = true)
    (hk : (k.toList.head?.map p).getD true = false) : mayMatch w k = false := by
  unfold mayMatch
  rw [Bool.or_eq_false_iff]
  constructor
  · rw [beq_eq_false_iff_ne]; rintro rfl
    cases h : k.toList with
    | nil => rw [h] at hw; simp at hw
    | cons c l => rw [h] at hw hk; simp at hw hk; rw [hw] at hk; cases hk
  · rw [Bool.and_eq_false_iff]; left
    rw [Bool.eq_false_iff]
    intro hp
    rw [List.isPrefixOf_iff_prefix] at hp
    obtain ⟨u, hu⟩ := hp
    cases h : k.toList with
    | nil => rw [h] at hk; simp at hk
    | cons c l =>
      rw [h] at hk hu
      rw [← hu] at hw
      simp at hw hk; rw [hw] at hk; cases hk

theorem digit_noMatch {l : List String} (hl : (l.all (fun k => !(k.toList.head?.map Char.isDigit).getD true)) = true)
    {w : String} (hw : DigitText w.toList) : ∀ k ∈ l, mayMatch w k = false := by
  intro k hk
  apply noMatch_head (p := Char.isDigit)
  · cases h : w.toList with
    | nil => exact absurd h hw.1
    | cons c t => simp [hw.2 c (by rw [h]; simp)]
  · have := List.all_eq_true.1 hl k hk
    simpa using this

theorem digitText_word {w : String} (h : DigitText w.toList) : Word w := by
  refine ⟨h.1, ?_⟩
  intro c hc hb
  have := h.2 c hc
  simp only [List.mem_cons, List.not_mem_nil, or_false] at hb
  rcases hb with rfl | rfl | rfl | rfl <;> revert this <;> decide

theorem mem_word {l : List String} (hl : (l.all (fun k => !k.toList.isEmpty && k.toList.all (fun c => !isBlank c))) = true)
    {w : String} (hw : w ∈ l) : Word w := word_of_decide (List.all_eq_true.1 hl w hw)

theorem PortWord.word {w : String} (h : PortWord w) : Word w := by
  rcases h with h | ⟨h, -⟩
  · exact mem_word (by decide +kernel) h
  · exact digitText_word h

theorem find_portCodes : ∀ w ∈ portCodes, portCodes.find? (mayMatch w) = some w := by decide +kernel

theorem endOfWord_ok {t : Text} (h : EndOfWord t) : endOfWord t = .ok () t := by
  unfold endOfWord; rw [if_pos ((wsOrNl_iff t).2 h)]

theorem port_read {g : Guard} (hg : GuardOk g) {w : String} (h : PortWord w) {t : Text} (ht : EndOfWord t) :
    port g (w.toList ++ t) = .ok w t := by
  have hb := kwNoBlank (l := portCodes) (by decide +kernel)
  unfold port
  rcases h with h | ⟨hd, hl, hv⟩
  · have h1 := oneOf_word hg ht hb (find_portCodes w h)
    apply alt_ok
    rw [bind_ok (ahead_ok (a := ()) (r := t) (by rw [bind_ok h1]; exact endOfWord_ok ht)), h1]
  · have h1 : oneOf g portCodes (w.toList ++ t) = .fail :=
      oneOf_no hg ht hb (digit_noMatch (by decide +kernel) hd)
    rw [alt_fail (bind_fail (ahead_fail (bind_fail h1))), bind_ok (intP_digits hd.1 hd.2 ht),
      bind_ok (act_ok (((C34_number_checks w.toList w.toList hd).2.1).2 ⟨rfl, hv, hl⟩) _), String.ofList_toList]
    rfl

theorem pyInt_portCode : ∀ w ∈ portCodes, pyInt w.toList = none := by decide +kernel

theorem PortWords.words {e : Env} (he : e.WF) {pw : List String} {p : PortVal} (h : PortWords e pw p) :
    pw ≠ [] ∧ ∀ w ∈ pw, Word w := by
  cases h with
  | op o w ho hw =>
    refine ⟨by simp, ?_⟩
    intro x hx
    simp only [List.mem_cons, List.not_mem_nil, or_false] at hx
    rcases hx with rfl | rfl
    · exact mem_word (by decide +kernel) ho
    · exact hw.word
  | range a b ha hb _ =>
    refine ⟨by simp, ?_⟩
    intro x hx
    simp only [List.mem_cons, List.not_mem_nil, or_false] at hx
    rcases hx with rfl | rfl | rfl
    · exact word_of_decide (by decide +kernel)
    · exact ha.word
    · exact hb.word
  | group w o hk _ =>
    refine ⟨by simp, ?_⟩
    intro x hx
    simp only [List.mem_cons, List.not_mem_nil, or_false] at hx
    rcases hx with rfl | rfl
    · exact word_of_decide (by decide +kernel)
    · obtain ⟨p, hp, rfl⟩ := mem_keys hk; exact he.portGroups p hp

theorem mkPortRange_ok {a b : String} (ha : PortWord a) (hb : PortWord b)
    (h : DigitText a.toList → DigitText b.toList → a < b) : mkPortRange a b = .ok (.range a b) := by
  unfold mkPortRange
  rcases ha with ha | ⟨ha, -⟩
  · rw [pyInt_portCode a ha]
  · rcases hb with hb | ⟨hb, -⟩
    · rw [pyInt_portCode b hb]; cases pyInt a.toList <;> rfl
    · cases pyInt a.toList <;> cases pyInt b.toList <;> simp [h ha hb]

theorem port_cond_readE {e : Env} (he : e.WF) {pw : List String} {p : PortVal} (h : PortWords e pw p) {E : Text → Prop}
    {more : List String} {t : Text} (hs : StaE E (pw ++ more) t) :
    ∃ t', aclPort e t = .ok p t' ∧ AftE E more t' := by
  have hg := he.guardOk
  have hwords := (h.words he).2
  cases h with
  | op o w ho hw =>
    obtain ⟨t1, rfl, ht⟩ := hs
    have ht : AftE E (w :: more) t1 := ht
    obtain ⟨t2, h2, t', rfl, h3⟩ := ht.blanks (hwords w (by simp))
    refine ⟨t', ?_, h3⟩
    have hne : o ≠ "object-group" := by rintro rfl; revert ho; decide
    have hwo := (hwords o (by simp)).noBlank
    unfold aclPort
    rw [alts_fail (kw_other hg (noBlank_of_decide (by decide +kernel)) hwo ht.endOfWord hne),
      alts_fail (kw_other hg (noBlank_of_decide (by decide +kernel)) hwo ht.endOfWord hne)]
    apply alts_ok
    rw [bind_ok (oneOf_word hg ht.endOfWord (kwNoBlank (by decide +kernel)) (by
      simp only [List.mem_cons, List.not_mem_nil, or_false] at ho
      rcases ho with rfl | rfl | rfl | rfl <;> decide +kernel)), bind_ok h2, bind_ok (port_read hg hw h3.endOfWord)]
    rfl
  | range a b ha hb hlt =>
    obtain ⟨t1, rfl, ht⟩ := hs
    have ht : AftE E (a :: b :: more) t1 := ht
    obtain ⟨t2, h2, t3, rfl, h3⟩ := ht.blanks (hwords a (by simp))
    have h3 : AftE E (b :: more) t3 := h3
    obtain ⟨t4, h4, t', rfl, h5⟩ := h3.blanks (hwords b (by simp))
    refine ⟨t', ?_, h5⟩
    have hwo := (hwords "range" (by simp)).noBlank
    unfold aclPort
    rw [alts_fail (kw_other hg (noBlank_of_decide (by decide +kernel)) hwo ht.endOfWord (by decide)),
      alts_fail (kw_other hg (noBlank_of_decide (by decide +kernel)) hwo ht.endOfWord (by decide)),
      alts_fail (kws_other hg (kwNoBlank (by decide +kernel)) hwo ht.endOfWord (by decide))]
    apply alts_ok
    rw [bind_ok ((tok_word (noBlank_of_decide (by decide +kernel)) ht.endOfWord hg.passes).1 rfl), bind_ok h2,
      bind_ok (port_read hg ha h3.endOfWord), bind_ok h4, bind_ok (port_read hg hb h5.endOfWord),
      bind_ok (act_ok (mkPortRange_ok ha hb hlt) _)]
    rfl
  | group w o hk hn =>
    obtain ⟨t1, rfl, ht⟩ := hs
    have ht : AftE E (w :: more) t1 := ht
    obtain ⟨t2, h2, t', rfl, h3⟩ := ht.blanks (hwords w (by simp))
    refine ⟨t', ?_, h3⟩
    have hk1 := (tok_word (g := e.guard) (k := "object-group") (w := "object-group")
      (noBlank_of_decide (by decide +kernel)) ht.endOfWord hg.passes).1 rfl
    unfold aclPort
    rw [alts_fail (by
      rw [bind_ok hk1, bind_ok h2]
      exact bind_fail (refer_unknown hg he.svcGroups (hwords w (by simp)).noBlank hn h3.endOfWord))]
    apply alts_ok
    rw [bind_ok hk1, bind_ok h2, bind_ok (refer_known hg he.portGroups hk h3.endOfWord)]
    rfl

theorem port_cond_read {e : Env} (he : e.WF) {pw : List String} {p : PortVal} (h : PortWords e pw p) {rest : Text}
    {more : List String} {t : Text} (hs : Starts rest (pw ++ more) t) :
    ∃ t', aclPort e t = .ok p t' ∧ After rest more t' := by
  obtain ⟨t', h1, h2⟩ := port_cond_readE he h hs.toE
  exact ⟨t', h1, h2.after⟩

/-- No port condition begins with these words. -/
def NoPort (e : Env) : List String → Prop
  | [] => True
  | w :: ws => w ∉ ["gt", "lt", "eq", "neq", "range"] ∧
    (w = "object-group" → ∃ x ws', ws = x :: ws' ∧ Word x ∧ (∀ v, ¬ Known e.svcGroups x v) ∧ ∀ v, ¬ Known e.portGroups x v)

theorem aclPort_failE {e : Env} (he : e.WF) {w : String} {wl : List String} (hw : Word w) {E : Text → Prop} {t : Text}
    (h : NoPort e (w :: wl)) (hs : StaE E (w :: wl) t) : aclPort e t = .fail := by
  have hg := he.guardOk
  obtain ⟨t1, rfl, ht⟩ := hs
  obtain ⟨h1, h2⟩ := h
  simp only [List.mem_cons, List.not_mem_nil, or_false, not_or] at h1
  unfold aclPort
  have hog : ∀ {β : Type} (d : Dict String Nat) (f : Nat → P β), (∀ p ∈ d, Word p.1) →
      (w = "object-group" → ∃ x ws', wl = x :: ws' ∧ Word x ∧ ∀ v, ¬ Known d x v) →
      (tok e.guard "object-group" >>= fun _ => ws >>= fun _ => refer e.guard wsOrNl d >>= f) (w.toList ++ t1) = .fail := by
    intro β d f hd hx
    by_cases hwk : w = "object-group"
    · obtain ⟨x, ws', rfl, hxw, hu⟩ := hx hwk
      obtain ⟨t2, h2, t', rfl, h3⟩ := AftE.blanks ht hxw
      rw [bind_ok ((tok_word (noBlank_of_decide (by decide +kernel)) ht.endOfWord hg.passes).1 hwk), bind_ok h2]
      exact bind_fail (refer_unknown hg hd hxw.noBlank hu h3.endOfWord)
    · exact kw_other hg (noBlank_of_decide (by decide +kernel)) hw.noBlank ht.endOfWord hwk
  rw [alts_fail (hog _ _ he.svcGroups (fun hx => by
      obtain ⟨x, ws', a, b, c, d⟩ := h2 hx; exact ⟨x, ws', a, b, c⟩)),
    alts_fail (hog _ _ he.portGroups (fun hx => by
      obtain ⟨x, ws', a, b, c, d⟩ := h2 hx; exact ⟨x, ws', a, b, d⟩)),
    alts_fail (kws_other hg (kwNoBlank (by decide +kernel)) hw.noBlank ht.endOfWord (by simp [h1])),
    alts_fail (kw_other hg (noBlank_of_decide (by decide +kernel)) hw.noBlank ht.endOfWord h1.2.2.2.2)]
  rfl

theorem aclPort_fail {e : Env} (he : e.WF) {w : String} {wl : List String} (hw : Word w) {rest t : Text}
    (h : NoPort e (w :: wl)) (hs : Starts rest (w :: wl) t) : aclPort e t = .fail := aclPort_failE he hw h hs.toE

theorem NodeWords.words {e : Env} (he : e.WF) {nw : List String} {n : PNode} (h : NodeWords e nw n) :
    nw ≠ [] ∧ ∀ w ∈ nw, Word w := by
  cases h with
  | host hw h hh => exact hh.words he
  | port hw pw h p hh hp =>
    obtain ⟨a, b⟩ := hh.words he
    obtain ⟨c, d⟩ := hp.words he
    refine ⟨by simp [a], ?_⟩
    intro w hm
    rcases List.mem_append.1 hm with hm | hm
    · exact b w hm
    · exact d w hm

/-- At the end of a line no token matches. -/
theorem tok_at_end {g : Guard} (hg : GuardOk g) {k : String} (hk : (k.toList.all (fun c => !isBlank c)) = true)
    (hne : k ≠ "") {t : Text} (ht : EndOfWord t) : tok g k t = .fail := by
  rcases (tok_word (w := "") (noBlank_of_decide hk) ht hg.passes).2 (Ne.symm hne) with h | ⟨c, u, h, -⟩
  · exact h
  · simp at h

theorem oneOf_at_end {g : Guard} (hg : GuardOk g) {l : List String}
    (hl : (l.all (fun k => k.toList.all (fun c => !isBlank c))) = true) (hne : l.elem "" = false)
    {t : Text} (ht : EndOfWord t) : oneOf g l t = .fail := by
  rcases oneOf_other (w := "") hg ht (kwNoBlank hl) (by simpa using hne) with h | ⟨k, c, u, h, -⟩
  · exact h
  · simp at h

/-- Behind the last word: blanks and then nothing that `p` takes, or no blanks. -/
theorem opt_at_end {α : Type} {p : P α} {rest t : Text} (h : After rest [] t)
    (hp : ∀ t', EndOfWord t' → p t' = .fail) : (ws >>= fun _ => p) t = .fail := by
  rcases h.wsEnd with ⟨h1, -⟩ | ⟨t', h1, -, h3⟩
  · exact bind_fail h1
  · rw [bind_ok h1]; exact hp t' h3.endOfWord

theorem opt_at_endE {α : Type} {p : P α} {E : Text → Prop} {t : Text} (h : AftE E [] t)
    (hp : ∀ t', EndOfWord t' → p t' = .fail) : (ws >>= fun _ => p) t = .fail := by
  obtain ⟨-, -, h1 | ⟨t', h1, h2⟩⟩ := h
  · exact bind_fail h1
  · rw [bind_ok h1]; exact hp t' h2

theorem aclPort_at_end {e : Env} (he : e.WF) {t : Text} (ht : EndOfWord t) : aclPort e t = .fail := by
  have hg := he.guardOk
  unfold aclPort
  rw [alts_fail (bind_fail (tok_at_end hg (by decide +kernel) (by decide) ht)),
    alts_fail (bind_fail (tok_at_end hg (by decide +kernel) (by decide) ht)),
    alts_fail (bind_fail (oneOf_at_end hg (by decide +kernel) (by decide +kernel) ht)),
    alts_fail (bind_fail (tok_at_end hg (by decide +kernel) (by decide) ht))]
  rfl

theorem node_readE {e : Env} (he : e.WF) {nw : List String} {n : PNode} (h : NodeWords e nw n) {E : Text → Prop}
    {more : List String} (hmore : ∀ w ∈ more, Word w) (hno : n.port = none → NoPort e more) {t : Text}
    (hs : StaE E (nw ++ more) t) : ∃ t', node e t = .ok n t' ∧ AftE E more t' := by
  cases h with
  | host hw h hh =>
    obtain ⟨t1, h1, h2⟩ := host_readE he hh hs
    refine ⟨t1, ?_, h2⟩
    unfold node
    rw [bind_ok h1]
    have : (ws >>= fun _ => aclPort e) t1 = .fail := by
      cases more with
      | nil => exact opt_at_endE h2 (fun t' ht' => aclPort_at_end he ht')
      | cons w wl =>
        obtain ⟨t2, h3, h4⟩ := AftE.blanks h2 (hmore w (by simp))
        rw [bind_ok h3]
        exact aclPort_failE he (hmore w (by simp)) (hno rfl) h4
    rw [bind_ok (opt_fail this)]
    rfl
  | port hw pw h p hh hp =>
    rw [List.append_assoc] at hs
    obtain ⟨t1, h1, h2⟩ := host_readE he hh hs
    obtain ⟨pne, pwd⟩ := hp.words he
    obtain ⟨w, pl, rfl⟩ : ∃ w pl, pw = w :: pl := by
      cases pw with
      | nil => exact absurd rfl pne
      | cons w pl => exact ⟨w, pl, rfl⟩
    obtain ⟨t2, h3, h4⟩ := AftE.blanks h2 (pwd w (by simp))
    obtain ⟨t', h5, h6⟩ := port_cond_readE he hp (more := more) h4
    refine ⟨t', ?_, h6⟩
    unfold node
    have h7 : (ws >>= fun _ => aclPort e) t1 = .ok p t' := by rw [bind_ok h3, h5]
    rw [bind_ok h1, bind_ok (opt_ok h7)]
    cases hp <;> rfl

theorem node_read {e : Env} (he : e.WF) {nw : List String} {n : PNode} (h : NodeWords e nw n) {rest : Text}
    {more : List String} (hmore : ∀ w ∈ more, Word w) (hno : n.port = none → NoPort e more) {t : Text}
    (hs : Starts rest (nw ++ more) t) : ∃ t', node e t = .ok n t' ∧ After rest more t' := by
  obtain ⟨t', h1, h2⟩ := node_readE he h hmore hno hs.toE
  exact ⟨t', h1, h2.after⟩

/-! ## protocols -/

theorem ProtoWords.words {e : Env} (he : e.WF) {pw : List String} {p : Proto} (h : ProtoWords e pw p) :
    pw ≠ [] ∧ ∀ w ∈ pw, Word w := by
  have two : ∀ {a b : String}, Word a → Word b → [a, b] ≠ [] ∧ ∀ w ∈ [a, b], Word w := by
    intro a b ha hb
    refine ⟨by simp, ?_⟩
    intro w hw
    simp only [List.mem_cons, List.not_mem_nil, or_false] at hw
    rcases hw with rfl | rfl
    · exact ha
    · exact hb
  have one : ∀ {a : String}, Word a → [a] ≠ [] ∧ ∀ w ∈ [a], Word w := by
    intro a ha
    refine ⟨by simp, ?_⟩
    intro w hw
    simp only [List.mem_cons, List.not_mem_nil, or_false] at hw
    subst hw; exact ha
  cases h with
  | code w hw => exact one (mem_word (by decide +kernel) hw)
  | number w hd => exact one (digitText_word hd)
  | svcGroup w o hk =>
    obtain ⟨p, hp, rfl⟩ := mem_keys hk
    exact two (word_of_decide (by decide +kernel)) (he.svcGroups p hp)
  | protoGroup w o hk _ =>
    obtain ⟨p, hp, rfl⟩ := mem_keys hk
    exact two (word_of_decide (by decide +kernel)) (he.protoGroups p hp)
  | svcObj w o hk =>
    obtain ⟨p, hp, rfl⟩ := mem_keys hk
    exact two (word_of_decide (by decide +kernel)) (he.svcObjs p hp)

theorem find_protocolCodes : ∀ w ∈ protocolCodes, protocolCodes.find? (mayMatch w) = some w := by decide +kernel

theorem proto_readE {e : Env} (he : e.WF) {pw : List String} {p : Proto} (h : ProtoWords e pw p) {E : Text → Prop}
    {more : List String} {t : Text} (hs : StaE E (pw ++ more) t) :
    ∃ t', aclProtocol e t = .ok p t' ∧ AftE E more t' := by
  have hg := he.guardOk
  have hwords := (h.words he).2
  cases h with
  | code w hw =>
    obtain ⟨t', rfl, ht⟩ := hs
    have ht : AftE E more t' := ht
    refine ⟨t', ?_, ht⟩
    have hb := (hwords w (by simp)).noBlank
    unfold aclProtocol
    rw [alts_fail (kw_other hg (noBlank_of_decide (by decide +kernel)) hb ht.endOfWord (by
        rintro rfl; revert hw; decide)),
      alts_fail (kw_other hg (noBlank_of_decide (by decide +kernel)) hb ht.endOfWord (by
        rintro rfl; revert hw; decide))]
    apply alts_ok
    apply alt_ok
    rw [bind_ok (oneOf_word hg ht.endOfWord (kwNoBlank (by decide +kernel)) (find_protocolCodes w hw))]
    rfl
  | number w hd hl hv =>
    obtain ⟨t', rfl, ht⟩ := hs
    have ht : AftE E more t' := ht
    refine ⟨t', ?_, ht⟩
    have hb := (hwords w (by simp)).noBlank
    have hne : ∀ k : String, (k.toList.head?.map Char.isDigit).getD true = false → w ≠ k := by
      rintro k hk rfl
      cases hc : w.toList with
      | nil => exact hd.1 hc
      | cons c l => rw [hc] at hk; simp [hd.2 c (by rw [hc]; simp)] at hk
    unfold aclProtocol
    rw [alts_fail (kw_other hg (noBlank_of_decide (by decide +kernel)) hb ht.endOfWord (hne _ (by decide +kernel))),
      alts_fail (kw_other hg (noBlank_of_decide (by decide +kernel)) hb ht.endOfWord (hne _ (by decide +kernel)))]
    apply alts_ok
    rw [alt_fail (bind_fail (oneOf_no hg ht.endOfWord (kwNoBlank (by decide +kernel)) (digit_noMatch (by decide +kernel) hd))),
      bind_ok (intP_digits hd.1 hd.2 ht.endOfWord),
      bind_ok (act_ok ((C34_number_checks w.toList w.toList hd).1.2 ⟨rfl, hv, hl⟩) _), String.ofList_toList]
    rfl
  | svcGroup w o hk =>
    obtain ⟨t1, rfl, ht⟩ := hs
    have ht : AftE E (w :: more) t1 := ht
    obtain ⟨t2, h2, t', rfl, h3⟩ := ht.blanks (hwords w (by simp))
    refine ⟨t', ?_, h3⟩
    unfold aclProtocol
    apply alts_ok
    rw [bind_ok ((tok_word (noBlank_of_decide (by decide +kernel)) ht.endOfWord hg.passes).1 rfl), bind_ok h2]
    apply alt_ok
    rw [bind_ok (refer_known hg he.svcGroups hk h3.endOfWord)]
    rfl
  | protoGroup w o hk hn =>
    obtain ⟨t1, rfl, ht⟩ := hs
    have ht : AftE E (w :: more) t1 := ht
    obtain ⟨t2, h2, t', rfl, h3⟩ := ht.blanks (hwords w (by simp))
    refine ⟨t', ?_, h3⟩
    unfold aclProtocol
    apply alts_ok
    rw [bind_ok ((tok_word (noBlank_of_decide (by decide +kernel)) ht.endOfWord hg.passes).1 rfl), bind_ok h2,
      alt_fail (bind_fail (refer_unknown hg he.svcGroups (hwords w (by simp)).noBlank hn h3.endOfWord)),
      bind_ok (refer_known hg he.protoGroups hk h3.endOfWord)]
    rfl
  | svcObj w o hk =>
    obtain ⟨t1, rfl, ht⟩ := hs
    have ht : AftE E (w :: more) t1 := ht
    obtain ⟨t2, h2, t', rfl, h3⟩ := ht.blanks (hwords w (by simp))
    refine ⟨t', ?_, h3⟩
    have hb := (hwords "object" (by simp)).noBlank
    unfold aclProtocol
    rw [alts_fail (kw_other hg (noBlank_of_decide (by decide +kernel)) hb ht.endOfWord (by decide))]
    apply alts_ok
    rw [bind_ok ((tok_word (noBlank_of_decide (by decide +kernel)) ht.endOfWord hg.passes).1 rfl), bind_ok h2,
      bind_ok (refer_known hg he.svcObjs hk h3.endOfWord)]
    rfl

theorem proto_read {e : Env} (he : e.WF) {pw : List String} {p : Proto} (h : ProtoWords e pw p) {rest : Text}
    {more : List String} {t : Text} (hs : Starts rest (pw ++ more) t) :
    ∃ t', aclProtocol e t = .ok p t' ∧ After rest more t' := by
  obtain ⟨t', h1, h2⟩ := proto_readE he h hs.toE
  exact ⟨t', h1, h2.after⟩

end Acltk.AclText
