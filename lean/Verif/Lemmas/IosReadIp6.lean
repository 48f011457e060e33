import Verif.Lemmas.IosReadNamed
/-!
# Reading IPv6 lists
-/
namespace Acltk.IosText
open Acltk Acltk.Lookup Acltk.Peg Acltk.AclText
open Acltk.FwsmText (St Bare LineRest Aft Sta ip4_read known_word kwWord tok_self refer_end sta_of_bare NoSp Members sp_cons)

variable {rest : Text} {g : Guard}

theorem host6_first {hw : List String} {h : Host} (hh : Host6W hw h) {w : String} {wl : List String} (he : hw = w :: wl) :
    w ≠ "object-group" ∧ ∀ x, x < 2 ^ 32 → w.toList ≠ Dotted x := by
  have kw : ∀ {k : String}, k ∈ ["host", "any"] → k ≠ "object-group" ∧ ∀ x, x < 2 ^ 32 → k.toList ≠ Dotted x := by
    intro k hk
    refine ⟨by rintro rfl; revert hk; decide, fun x hx hd => ?_⟩
    exact dotted_not_kw hx hd (l := ["host", "any"]) (by decide +kernel) hk
  cases hh with
  | network a b m x p n h6 hw =>
    cases he
    constructor
    · rintro rfl
      have : '/' ∈ "object-group".toList := by rw [hw]; simp
      revert this; decide
    · intro y hy hd
      exact dotted_no_slash hy hd (by rw [hw]; simp)
  | host a x h6 => cases he; exact kw (by decide)
  | any => cases he; exact kw (by decide)

theorem node6_first {e : Env} {nw : List String} {n : PNode} (h : NodeW e Host6W nw n) {w : String} {wl : List String}
    (he : nw = w :: wl) : w ≠ "object-group" ∧ ∀ x, x < 2 ^ 32 → w.toList ≠ Dotted x := by
  cases h with
  | host hw h hh => exact host6_first hh he
  | port hw pw h p hh hp =>
    cases hw with
    | nil => cases hh
    | cons a l => cases he; exact host6_first hh rfl

theorem node6_ambiguous {e : Env} {s d : PNode} {dw : List String} (h : NodeW e Host6W dw d) : ¬ Ambiguous e s dw := by
  rintro ⟨-, w, l, rfl, -⟩
  exact (node6_first h rfl).1 rfl

theorem node6_joined {e : Env} {d : PNode} {sw dw : List String} (h : NodeW e Host6W dw d) : ¬ Joined sw dw := by
  rintro ⟨-, v, vl, y, rfl, hy, hv⟩
  exact (node6_first h rfl).2 y hy hv

theorem ip6_digit : ((ip6Forms.flags ++ ip6Forms.values ++ ip6Forms.logs).all
    (fun k => !(k.toList.head?.map Char.isDigit).getD true)) = true := by decide +kernel
theorem ip6_ports : ∀ k ∈ ip6Forms.flags ++ ip6Forms.values ++ ip6Forms.logs,
    k ∉ ["gt", "lt", "eq", "neq", "range", "object-group"] := by decide +kernel
theorem ip6i_digit : ((ip6IcmpForms.flags ++ ip6IcmpForms.values ++ ip6IcmpForms.logs).all
    (fun k => !(k.toList.head?.map Char.isDigit).getD true)) = true := by decide +kernel
theorem ip6i_ports : ∀ k ∈ ip6IcmpForms.flags ++ ip6IcmpForms.values ++ ip6IcmpForms.logs,
    k ∉ ["gt", "lt", "eq", "neq", "range", "object-group"] := by decide +kernel
theorem ip6i_other : ∀ k ∈ ip6IcmpForms.flags ++ ip6IcmpForms.values ++ ip6IcmpForms.logs,
    ∀ ka ∈ ip6Options, mayMatch k ka.1 = false := by decide +kernel

/-- Source and destination, in front of the words of options. -/
theorem nodes_read {e : Env} (he : e.WF) {H : List String → Host → Prop} {hp : P Host} (hr : Reads e H hp)
    {f : OptForms} {l : List (String × Arg)} (hf : Fits f l)
    (hd1 : ((f.flags ++ f.values ++ f.logs).all (fun k => !(k.toList.head?.map Char.isDigit).getD true)) = true)
    (hd2 : ∀ k ∈ f.flags ++ f.values ++ f.logs, k ∉ ["gt", "lt", "eq", "neq", "range", "object-group"])
    {sw dw ow : List String} {s d : PNode} {os : List (String × Option String)}
    (hsw : NodeW e H sw s) (hdw : NodeW e H dw d) (ha : ¬ Ambiguous e s dw) (hj : ¬ Joined sw dw)
    (how : OptW f ow os) {t : Text} (hs : Aft false rest (sw ++ (dw ++ ow)) t) :
    ∃ t', Aft false rest ow t' ∧ ∀ {β : Type} (k : PNode → PNode → P β),
      (ws >>= fun _ => nodeOf e hp >>= fun s => ws >>= fun _ => nodeOf e hp >>= fun d => k s d) t = k s d t' := by
  obtain ⟨sne, swd⟩ := hsw.words he hr
  obtain ⟨dne, dwd⟩ := hdw.words he hr
  obtain ⟨owd, oh⟩ := how.words hf.words
  have hmore : ∀ w ∈ dw ++ ow, Word w := by
    intro w hw
    rcases List.mem_append.1 hw with hw | hw
    · exact dwd w hw
    · exact owd w hw
  obtain ⟨sf, sl, hsl⟩ : ∃ a l, sw = a :: l := by
    cases sw with
    | nil => exact absurd rfl sne
    | cons a l => exact ⟨a, l, rfl⟩
  obtain ⟨df, dl, hdl⟩ : ∃ a l, dw = a :: l := by
    cases dw with
    | nil => exact absurd rfl dne
    | cons a l => exact ⟨a, l, rfl⟩
  obtain ⟨t3, h5, h6⟩ : ∃ t', ws t = .ok () t' ∧ Sta false rest (sw ++ (dw ++ ow)) t' := by
    rw [hsl] at hs ⊢; exact Aft.blanks hs (swd sf (by rw [hsl]; simp))
  obtain ⟨t4, h7, h8⟩ := nodeOf_read he hr hsw hmore (fun hn => hdw.noPort hr dne ha hn ow)
    (fun hn => hsw.sep hr hdw hj hn ow) h6
  obtain ⟨t5, h9, h10⟩ : ∃ t', ws t4 = .ok () t' ∧ Sta false rest (dw ++ ow) t' := by
    rw [hdl] at h8 ⊢; exact Aft.blanks h8 (dwd df (by rw [hdl]; simp))
  obtain ⟨t6, h11, h12⟩ := nodeOf_read he hr hdw owd (fun _ => opts_noPort hf.words hd2 how)
    (fun _ _ _ _ _ _ => opts_noAddr hf.words hd1 how) h10
  refine ⟨t6, h12, fun k => ?_⟩
  rw [bind_ok h5, bind_ok h7, bind_ok h9, bind_ok h11]

theorem nl_blanks {b : List Char} (hne : b ≠ []) (hb : Blanks b) (u : Text) : nl (b ++ u) = .fail := by
  cases b with
  | nil => exact absurd rfl hne
  | cons d b =>
    rcases hb d (by simp) with rfl | rfl <;> rfl

theorem aft_cons_nl {w : String} {wl : List String} {t : Text} (h : Aft false rest (w :: wl) t) : nl t = .fail := by
  obtain ⟨b, t', hne, hb, rfl, -⟩ := h
  exact nl_blanks hne hb _

/-- The general form does not apply where an ICMP type follows. -/
theorem ip6_notGeneral {e : Env} (he : e.WF) {ow : List String} {os : List (String × Option String)}
    (how : OptW ip6IcmpForms ow os) (hne : ow ≠ []) {t : Text} (hs : Aft false rest ow t) {β : Type}
    (k : Dict String (Option String) → P β) :
    (optionsOf e.guard ip6Options >>= fun o => nl >>= fun _ => k o) t = .fail := by
  obtain ⟨owd, oh⟩ := how.words ip6Icmp_fits.words
  cases ow with
  | nil => exact absurd rfl hne
  | cons w ow =>
    have hn := aft_cons_nl hs
    obtain ⟨t1, h1, t2, rfl, h2⟩ := hs.blanks (owd w (by simp))
    have : optionsOf e.guard ip6Options t = .ok [] t := by
      unfold optionsOf
      rw [bind_ok (many_fail (by
        rw [bind_ok h1]
        exact optionOf_no he.guardOk h2.eow ip6_fits.blank (ip6i_other w (oh w (by simp)))))]
      rfl
    rw [bind_ok this]
    exact bind_fail hn

theorem ip6Icmp_read {e : Env} (he : e.WF) {m p : String} {sw dw ow : List String} {s d : PNode}
    {os : List (String × Option String)} (hm : m ∈ ["permit", "deny"]) (hpi : p ∈ ["icmp", "icmp6"])
    (hsw : NodeW e Host6W sw s) (hdw : NodeW e Host6W dw d) (how : OptW ip6IcmpForms ow os) (hne : ow ≠ []) {t : Text}
    (hs : Sta false rest (m :: p :: (sw ++ (dw ++ ow))) t) :
    ∃ o, OptionsAre o os ∧ ip6Rule e t = .ok (IRule.mk "" none m (.name p) s d [] o none) rest := by
  have hg := he.guardOk
  have hpf : Word p := mem_word (l := ["icmp", "icmp6"]) (by decide +kernel) hpi
  obtain ⟨t1, rfl, h1⟩ := hs
  obtain ⟨t2, h2, h3⟩ := h1.blanks hpf
  have hpw : ProtoWords e [p] (.name p) := .code p ((by decide +kernel : ∀ p ∈ ["icmp", "icmp6"], p ∈ Words.protocols) p hpi)
  obtain ⟨t3, h4, h5⟩ := proto_readE he hpw (more := sw ++ (dw ++ ow)) (sta_toE h3)
  have h5 := aft_ofE h5
  obtain ⟨t4, h6, h7⟩ := nodes_read he (reads_ios6 he) ip6Icmp_fits ip6i_digit ip6i_ports hsw hdw (node6_ambiguous hdw)
    (node6_joined hdw) how h5
  obtain ⟨t5, rfl, h8⟩ := h3
  have h8 : Aft false rest (sw ++ (dw ++ ow)) t5 := h8
  have hi := oneOf_word hg (w := p) (l := ["icmp", "icmp6"]) h8.eow (kwNoBlank (by decide +kernel)) (by
      simp only [List.mem_cons, List.not_mem_nil, or_false] at hpi
      rcases hpi with rfl | rfl <;> decide +kernel)
  obtain ⟨t7, h9, h10⟩ := nodes_read he (reads_ios6 he) ip6Icmp_fits ip6i_digit ip6i_ports hsw hdw (node6_ambiguous hdw)
    (node6_joined hdw) how h8
  obtain ⟨t8, o, h15, h16, h17⟩ := optionsOf_read hg ip6Icmp_fits how h9
  refine ⟨o, h17, ?_⟩
  unfold ip6Rule
  rw [alt_fail (by
    rw [bind_ok (mode_read hg hm h1.eow), bind_ok h2, bind_ok h4]
    refine (h7 _).trans ?_
    exact ip6_notGeneral he how hne h6 _)]
  rw [bind_ok (mode_read hg hm h1.eow), bind_ok h2, bind_ok hi]
  refine (h10 _).trans ?_
  rw [bind_ok h15, bind_ok h16]
  rfl

theorem ip6General_read {e : Env} (he : e.WF) {m : String} {pw sw dw ow : List String} {p : Proto} {s d : PNode}
    {os : List (String × Option String)} (hm : m ∈ ["permit", "deny"]) (hpw : ProtoWords e pw p)
    (hsw : NodeW e Host6W sw s) (hdw : NodeW e Host6W dw d) (how : OptW ip6Forms ow os) {t : Text}
    (hs : Sta false rest (m :: (pw ++ (sw ++ (dw ++ ow)))) t) :
    ∃ o, OptionsAre o os ∧ ip6Rule e t = .ok (IRule.mk "" none m p s d [] o none) rest := by
  have hg := he.guardOk
  obtain ⟨pf, pl, rfl, hpf⟩ := protoFirst he hpw
  obtain ⟨t1, rfl, h1⟩ := hs
  obtain ⟨t2, h2, h3⟩ := Aft.blanks h1 hpf
  obtain ⟨o, h4, h5⟩ := general_read he (reads_ios6 he) ip6_fits ip6_digit ip6_ports hpw hsw hdw (node6_ambiguous hdw)
    (node6_joined hdw) how h3
  refine ⟨o, h4, ?_⟩
  unfold ip6Rule
  apply alt_ok
  rw [bind_ok (mode_read hg hm h1.eow), bind_ok h2]
  exact h5 (fun p s d o => pure (IRule.mk "" none m p s d [] o none))

theorem optionsAre_add {d : Dict String (Option String)} {os : List (String × Option String)} (h : OptionsAre d os)
    (k : String) (v : Option String) : OptionsAre (dSet d k v) (os ++ [(k, v)]) := by
  intro k'
  rw [List.filter_append]
  by_cases hk : k' = k
  · subst hk; rw [dGet_dSet_same]; simp
  · rw [dGet_dSet_other _ _ hk, h k']
    rw [List.filter_cons_of_neg (by simp; exact fun h => hk h.symm)]; simp

theorem ip6Seq_read {e : Env} (he : e.WF) {wl : List String} {r : IRule} (h : Ip6Body e wl r) {l : List Char} (hl : Bare wl l)
    (u : Text) : ∃ d, (∀ k, dGet d k = dGet r.options k) ∧ ip6Seq e (' ' :: (l ++ u)) = .ok { r with options := d } u := by
  have hg := he.guardOk
  have hs := sta_of_bare (rest := u) hl
  -- the sequence number
  have head : ∀ {n m : String} {l' : List String}, wl = "sequence" :: n :: m :: l' → DigitText n.toList → m ∈ ["permit", "deny"] →
      ∃ t', Sta false u (m :: l') t' ∧ ∀ {r' : IRule}, ip6Rule e t' = .ok r' u →
        ip6Seq e (' ' :: (l ++ u)) = .ok { r' with options := dSet r'.options "sequence" (some n) } u := by
    rintro n m l' rfl hn hm
    have hw := digits_idWord hn.1 hn.2
    obtain ⟨t1, h1, h2⟩ := hs
    obtain ⟨t2, h3, t3, rfl, h4⟩ := h2.blanks hw.word
    obtain ⟨t4, h5, h6⟩ := h4.blanks (mode_word hm)
    refine ⟨t4, h6, fun hr => ?_⟩
    unfold ip6Seq
    rw [bind_ok (sp_cons _), h1, bind_ok (tok_self hg (by decide +kernel) h2.eow), bind_ok h3,
      bind_ok (intP_digits hn.1 hn.2 h4.eow), bind_ok h5, bind_ok hr, String.ofList_toList]
    rfl
  cases h with
  | general n m pw sw dw ow p s d o os hn hm hpw hsw hdw how ho =>
    obtain ⟨t', h1, h2⟩ := head rfl hn hm
    obtain ⟨o', h3, h4⟩ := ip6General_read he hm hpw hsw hdw how h1
    exact ⟨dSet o' "sequence" (some n), optionsAre_eq (optionsAre_add h3 _ _) ho, h2 h4⟩
  | icmp n m p sw dw ow s d o os hn hm hpi hsw hdw how hne ho =>
    obtain ⟨t', h1, h2⟩ := head rfl hn hm
    obtain ⟨o', h3, h4⟩ := ip6Icmp_read he hm hpi hsw hdw how hne h1
    exact ⟨dSet o' "sequence" (some n), optionsAre_eq (optionsAre_add h3 _ _) ho, h2 h4⟩

theorem ip6Rules_read {e : Env} (he : e.WF) {t : List Char} {rs : List IRule} (h : Members (Ip6Body e) Bare t rs)
    (hr : NoSp rest) : ∃ rs', SameRules rs rs' ∧ many (ip6Seq e) (t ++ rest) = .ok rs' rest := by
  induction h with
  | nil => exact ⟨[], .nil, many_fail (bind_fail (FwsmText.sp_fail hr))⟩
  | cons ws v l t vs hm hl _ ih =>
    obtain ⟨rs', h1, h2⟩ := ih
    obtain ⟨d, h3, h4⟩ := ip6Seq_read he hm hl (t ++ rest)
    refine ⟨{ v with options := d } :: rs', .cons _ _ _ _ ⟨h3, rfl⟩ h1, ?_⟩
    simp only [List.append_assoc, List.cons_append]
    refine many_ok h4 ?_ h2
    simp only [List.length_append, List.length_cons]; omega

theorem sameRule_id {n : String} {r r' : IRule} (h : SameRule r r') : SameRule { r with id := n } { r' with id := n } := by
  obtain ⟨h1, h2⟩ := h
  refine ⟨h1, ?_⟩
  cases r; cases r'; simp at h2 ⊢; simp_all

theorem ip6AccessList_read {e : Env} (he : e.WF) {n : String} (hn : IdWord n) {t : List Char} {rs : List IRule}
    (h : Members (Ip6Body e) Bare t rs) (hne : rs ≠ []) (hr : NoSp rest) {u : Text}
    (hs : Sta false (t ++ rest) ["access-list", n] u) :
    ∃ rs', SameRules (rs.map (fun r => { r with id := n })) rs' ∧ ip6AccessList e u = .ok rs' rest := by
  obtain ⟨t1, rfl, h1⟩ := hs
  obtain ⟨t2, h2, t3, rfl, h3⟩ := h1.blanks hn.word
  obtain ⟨rs', h4, h5⟩ := ip6Rules_read he h hr
  refine ⟨_, sameRules_map (fun _ _ => sameRule_id) h4, ?_⟩
  have h6 : many1 (ip6Seq e) (t ++ rest) = .ok rs' rest := by
    cases h with
    | nil => exact absurd rfl hne
    | cons ws v l t vs hm hl hmem =>
      obtain ⟨d, h7, h8⟩ := ip6Seq_read he hm hl (t ++ rest)
      obtain ⟨rs'', h9, h10⟩ := ip6Rules_read he hmem hr
      have h11 : many (ip6Seq e) (' ' :: (l ++ t) ++ rest) = .ok ({ v with options := d } :: rs'') rest := by
        simp only [List.append_assoc, List.cons_append]
        refine many_ok h8 ?_ h10
        simp only [List.length_append, List.length_cons]; omega
      rw [h11] at h5; cases h5
      simp only [List.append_assoc, List.cons_append]
      exact many1_ok h8 h10
  unfold ip6AccessList
  rw [bind_ok (tok_self he.guardOk (by decide +kernel) h1.eow), bind_ok h2, bind_ok (objName_read hn h3.eow), bind_ok h3.nl,
    bind_ok h6, String.ofList_toList]
  rfl

end Acltk.IosText
