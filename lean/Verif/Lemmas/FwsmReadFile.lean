import Verif.Lemmas.FwsmReadCmd
import Verif.Lemmas.FwsmReadNat
import Verif.Lemmas.FwsmClean
/-!
# Reading a whole configuration as written
-/
namespace Acltk.FwsmText
open Acltk Acltk.Peg Acltk.Lookup Acltk.AclText

variable {tr : Bool} {rest : Text} {g : Guard}

/-- One more command. -/
theorem commands_step {s s' s'' : St} {t r u : Text} {i : Item} {l : List Item} (h : command s t = .ok (i, s') r)
    (hl : r.length < t.length) (hr : commands s' r = .ok (l, s'') u) : commands s t = .ok (i :: l, s'') u := by
  rw [commands, h]
  simp only
  rw [if_pos hl, hr]

theorem commands_nil (s : St) : commands s [] = .ok ([], s) [] := by
  rw [commands]
  cases h : command s [] with
  | ok x r => simp
  | fail => rfl
  | raise e =>
    exfalso
    have hv : version [] = .fail := rfl
    have hk : ∀ k ∈ keywords, Skip s.env.guard [] k := by
      intro k hk
      have : k.toList ≠ [] := (by decide : ∀ k ∈ keywords, k.toList ≠ []) k hk
      intro β f
      apply bind_fail
      unfold tok
      cases hx : token s.env.guard [] k with
      | none => rfl
      | some p => exact absurd (token_inv hx).2.symm (by simp [this])
    rw [command_last hv hk, alts_fail (keep_fail (by
      unfold ignored
      have hf : ∀ kt ∈ ignoredList, kt.1.toList ≠ [] := by decide +kernel
      revert hf
      generalize ignoredList = l
      intro hf
      induction l with
      | nil => rfl
      | cons kt l ih =>
        rw [List.map_cons, alts_fail (bind_fail (show tok s.env.guard kt.1 [] = .fail from by
          unfold tok
          cases hx : token s.env.guard [] kt.1 with
          | none => rfl
          | some p => exact absurd (token_inv hx).2.symm (by simp [hf kt (by simp)])))]
        exact ih (fun kt hkt => hf kt (by simp [hkt]))))] at h
    cases h

theorem startOK_char {c : Char} {t : Text} (h : c ∉ [' ', '\n', '\r']) : StartOK (c :: t) := by
  simp only [List.mem_cons, List.not_mem_nil, or_false, not_or] at h
  refine ⟨by intro d hd; simp at hd; subst hd; exact h.1, ?_⟩
  intro r hr
  unfold nl at hr
  split at hr
  · rename_i heq; simp at heq; exact absurd heq.1 h.2.1
  · rename_i heq; simp at heq; exact absurd heq.1 h.2.2
  · cases hr

theorem startOK_word {w : String} (hw : Word w) (t : Text) : StartOK (w.toList ++ t) := by
  cases hx : w.toList with
  | nil => exact absurd hx hw.1
  | cons c l =>
    apply startOK_char
    have := hw.2 c (by rw [hx]; simp)
    simp only [List.mem_cons, List.not_mem_nil, or_false, not_or] at this ⊢
    exact ⟨this.1, this.2.2.1, this.2.2.2⟩

theorem startOK_sta {w : String} {wl : List String} {t : Text} (h : Sta tr rest (w :: wl) t) (hw : Word w) : StartOK t := by
  obtain ⟨t', rfl, -⟩ := h
  exact startOK_word hw t'

theorem startOK_nil : StartOK [] := by
  refine ⟨by intro c hc; simp at hc, ?_⟩
  intro r hr
  cases hr

theorem startOK_blank {n : Text} (hn : n = ['\n'] ∨ n = ['\r', '\n']) (hr : NoSp rest) : StartOK (n ++ rest) := by
  refine ⟨?_, ?_⟩
  · rcases hn with rfl | rfl <;> (intro c hc; simp at hc; subst hc; decide)
  · intro r h
    rw [nl_ok hn] at h
    cases h
    exact hr

theorem ignoredList_word : ∀ kt ∈ ignoredList, Word kt.1 := by
  intro kt h
  apply word_of_decide
  revert kt
  decide +kernel

theorem remarkLines_start {t : List Char} {rs : List (List Char)} (h : RemarkLines t rs) (hne : rs ≠ []) :
    ∃ u, t = "access-list".toList ++ u ∧ ∀ v, EndOfWord (u ++ v) := by
  cases h with
  | nil => exact absurd rfl hne
  | cons i h r t rs hi hs hr _ =>
    cases hs with
    | cons w b ws t' h1 hb1 hs =>
      exact ⟨b ++ (t' ++ ' ' :: (r ++ '\n' :: t)), by simp, fun v => by rw [List.append_assoc]; exact blanks_end h1 hb1⟩

theorem ruleWords_first {e : Env} {wl : List String} {r : PRule} (h : RuleWords e wl r) : ∃ l, wl = "access-list" :: l := by
  rcases h with h | h | h <;> cases h <;> exact ⟨_, rfl⟩

theorem spaced_first {w : String} {wl : List String} {t : List Char} (h : Spaced (w :: wl) t) :
    ∃ u, t = w.toList ++ u := by
  cases h with
  | one => exact ⟨[], by simp⟩
  | cons _ b _ t' _ _ _ => exact ⟨b ++ t', rfl⟩

theorem cmd_start {s s' : St} {t : List Char} {is : List Item} (h : Cmd s t is s') (hr : NoSp rest) : StartOK (t ++ rest) := by
  have kb : ∀ {k : String} {wl : List String} {l : List Char} (v : Text), Bare (k :: wl) l → Word k →
      StartOK (l ++ v) := fun v hl hk => startOK_sta (sta_of_bare (rest := v) hl) hk
  have kl : ∀ {k : String} {wl : List String} {l : List Char} (v : Text), Line (k :: wl) l → Word k →
      StartOK (l ++ v) := fun v hl hk => startOK_sta (sta_of_line (rest := v) hl) hk
  cases h with
  | version p v hp hv =>
    rcases hp with rfl | rfl
    · exact startOK_char (by decide)
    · exact startOK_char (by decide)
  | hostname w _ hw hl => exact kb _ hl (kwWord (by decide))
  | domain w _ hw hl => exact kb _ hl (kwWord (by decide))
  | interface w l t vs i hw hl ht hi => rw [List.append_assoc]; exact kb _ hl (kwWord (by decide))
  | name w n a _ hw hn hl => exact kb _ hl (kwWord (by decide))
  | nameDescription w n a l d hw hn hl hne hd =>
    obtain ⟨u, rfl⟩ := spaced_first hl
    simp only [List.append_assoc]
    exact startOK_word (kwWord (by decide)) _
  | timeRange w l t vs hw hl hm => rw [List.append_assoc]; exact kb _ hl (kwWord (by decide))
  | netObj n ws l x dt h d hn hl ho hx hd => rw [List.append_assoc]; exact kb _ hl (kwWord (by decide))
  | netObjNat n ws nw l x y dt h a d hn hl ho hx ha hy hd => rw [List.append_assoc]; exact kb _ hl (kwWord (by decide))
  | natOfObj n nw l y dt a d hn hl ha hy hd => rw [List.append_assoc]; exact kb _ hl (kwWord (by decide))
  | nat ws c n _ hw hc hl =>
    cases hw
    exact kl _ hl (kwWord (by decide))
  | natDescription ws c n l b d hw hl hb hb' hd hh hc =>
    cases hw
    obtain ⟨u, rfl⟩ := spaced_first hl
    simp only [List.append_assoc]
    exact startOK_word (kwWord (by decide)) _
  | natPix w i b u hp hk hb hb' hu =>
    simp only [List.append_assoc]
    exact startOK_word (kwWord (by decide)) _
  | svcObj n ws l x dt v d hn hl ho hx hd => rw [List.append_assoc]; exact kb _ hl (kwWord (by decide))
  | netGroup n l dt t d vs hn hl hd hm => rw [List.append_assoc]; exact kl _ hl (kwWord (by decide))
  | portGroup n p l dt t d vs hn hp hl hd hm => rw [List.append_assoc]; exact kl _ hl (kwWord (by decide))
  | svcGroup n l dt t d vs hn hl hd hm => rw [List.append_assoc]; exact kl _ hl (kwWord (by decide))
  | icmpGroup n l dt t d vs hn hl hd hm => rw [List.append_assoc]; exact kl _ hl (kwWord (by decide))
  | protoGroup n l dt t d vs hn hl hd hm => rw [List.append_assoc]; exact kl _ hl (kwWord (by decide))
  | rule rt l rs ws r hrt hw hl =>
    by_cases hne : rs = []
    · subst hne
      cases hrt
      obtain ⟨wl, rfl⟩ := ruleWords_first hw
      exact kl _ hl (kwWord (by decide))
    · obtain ⟨u, rfl, -⟩ := remarkLines_start hrt hne
      simp only [List.append_assoc]
      exact startOK_word (kwWord (by decide)) _
  | accessGroup n d i _ hn hd hi hl => exact kl _ hl (kwWord (by decide))
  | accessGroupGlobal n _ hn hl => exact kl _ hl (kwWord (by decide))
  | ignored k f u hk _ hu =>
    rw [List.append_assoc]
    exact startOK_word (ignoredList_word _ hk) _
  | comment k u hk hu =>
    rw [List.append_assoc]
    exact startOK_word (mem_word (by decide) hk) _
  | blank n hn => exact startOK_blank hn hr

theorem file_start {s s' : St} {t : List Char} {is : List Item} (h : File s t is s') : StartOK t := by
  induction h with
  | nil => exact startOK_nil
  | cmd s s' s'' t u is js hc _ ih => exact cmd_start hc ih.1
  | remarks s s' t u rs js hr hne hn _ ih =>
    obtain ⟨v, rfl, -⟩ := remarkLines_start hr hne
    rw [List.append_assoc]
    exact startOK_word (kwWord (by decide)) _

/-! ## the tables stay well formed -/

theorem dSet_all {β : Type} {d : Dict String β} {Q : String → Prop} (h : ∀ p ∈ d, Q p.1) {k : String} (hk : Q k) (v : β) :
    ∀ p ∈ dSet d k v, Q p.1 := by
  intro p hp
  rcases mem_dSet hp with h1 | h1
  · rw [h1]; exact hk
  · exact h p h1

theorem enter_all {β : Type} {d : Dict String β} {Q : String → Prop} (h : ∀ p ∈ d, Q p.1) {k : String} (hk : Q k) (v : β) :
    ∀ p ∈ enter d k v, Q p.1 := by
  unfold enter
  split
  · exact h
  · exact dSet_all h hk v

theorem cmd_wf {s s' : St} {t : List Char} {is : List Item} (h : Cmd s t is s') (he : s.env.WF) :
    s'.env.WF ∧ s'.env.guard = s.env.guard := by
  cases h with
  | version p v hp hv => exact ⟨he, rfl⟩
  | hostname w _ hw hl => exact ⟨he, rfl⟩
  | domain w _ hw hl => exact ⟨he, rfl⟩
  | interface w l t vs i hw hl ht hi => exact ⟨he, rfl⟩
  | name w n a _ hw hn hl => exact ⟨{ he with names := dSet_all he.names hn a }, rfl⟩
  | nameDescription w n a l d hw hn hl hne hd => exact ⟨{ he with names := dSet_all he.names hn a }, rfl⟩
  | timeRange w l t vs hw hl hm => exact ⟨{ he with timeRanges := dSet_all he.timeRanges hw.word _ }, rfl⟩
  | netObj n ws l x dt h d hn hl ho hx hd => exact ⟨{ he with netObjs := enter_all he.netObjs hn.word _ }, rfl⟩
  | netObjNat n ws nw l x y dt h a d hn hl ho hx ha hy hd => exact ⟨{ he with netObjs := enter_all he.netObjs hn.word _ }, rfl⟩
  | natOfObj n nw l y dt a d hn hl ha hy hd => exact ⟨{ he with netObjs := enter_all he.netObjs hn.word _ }, rfl⟩
  | nat ws c n _ hw hc hl => exact ⟨he, rfl⟩
  | natDescription ws c n l b d hw hl hb hb' hd hh hc => exact ⟨he, rfl⟩
  | natPix w i b u hp hk hb hb' hu => exact ⟨he, rfl⟩
  | svcObj n ws l x dt v d hn hl ho hx hd => exact ⟨{ he with svcObjs := enter_all he.svcObjs hn.word _ }, rfl⟩
  | netGroup n l dt t d vs hn hl hd hm => exact ⟨{ he with netGroups := dSet_all he.netGroups hn.word _ }, rfl⟩
  | portGroup n p l dt t d vs hn hp hl hd hm => exact ⟨{ he with portGroups := dSet_all he.portGroups hn.word _ }, rfl⟩
  | svcGroup n l dt t d vs hn hl hd hm => exact ⟨{ he with svcGroups := dSet_all he.svcGroups hn.word _ }, rfl⟩
  | icmpGroup n l dt t d vs hn hl hd hm => exact ⟨{ he with icmpGroups := dSet_all he.icmpGroups hn.word _ }, rfl⟩
  | protoGroup n l dt t d vs hn hl hd hm => exact ⟨{ he with protoGroups := dSet_all he.protoGroups hn.word _ }, rfl⟩
  | rule rt l rs ws r hrt hw hl => exact ⟨he, rfl⟩
  | accessGroup n d i _ hn hd hi hl => exact ⟨he, rfl⟩
  | accessGroupGlobal n _ hn hl => exact ⟨he, rfl⟩
  | ignored k f u hk _ hu => exact ⟨he, rfl⟩
  | comment k u hk hu => exact ⟨he, rfl⟩
  | blank n hn => exact ⟨he, rfl⟩

/-! ## commands -/

theorem sameItems_append {a b c d : List Item} (h : SameItems a b) (h' : SameItems c d) : SameItems (a ++ c) (b ++ d) := by
  induction h with
  | nil => exact h'
  | cons i j is js h _ ih => exact .cons _ _ _ _ h ih

theorem ruleWords_remark {e : Env} {wl : List String} {r : PRule} (h : RuleWords e wl r) : r.remark = [] := by
  rcases h with h | h | h <;> cases h <;> simp_all

theorem version_no_word {w : String} (hw : Word w) (h : ∀ c ∈ w.toList.head?, c ≠ 'A' ∧ c ≠ 'F') (t : Text) :
    version (w.toList ++ t) = .fail := by
  apply version_no
  intro c hc
  cases hx : w.toList with
  | nil => exact absurd hx hw.1
  | cons d l => rw [hx] at hc h; simp at hc; subst hc; exact h _ (by simp)

theorem word_ctx (hg : GuardOk g) {k : String} (hk : k ∈ keywords) {wl : List String} {t : Text} (hs : Sta tr rest (k :: wl) t) :
    version t = .fail ∧ ∀ k' ∈ keywords, k' ≠ k → Skip g t k' := by
  obtain ⟨t', rfl, e, -⟩ := hs.word
  have hw : Word k := mem_word (by decide) hk
  exact ⟨version_no_word hw ((by decide : ∀ k ∈ keywords, ∀ c ∈ k.toList.head?, c ≠ 'A' ∧ c ≠ 'F') k hk) _,
    fun k' hk' h => skips_word hg hw e k' hk' (Ne.symm h)⟩

theorem command_blank {s : St} {n : Text} (hn : n = ['\n'] ∨ n = ['\r', '\n']) (rest : Text) :
    command s (n ++ rest) = .ok (.nothing, s) rest := by
  have hv : version (n ++ rest) = .fail := version_no (by
    rcases hn with rfl | rfl <;> (intro c hc; simp at hc; subst hc; decide))
  have hk : ∀ k ∈ keywords, Skip s.env.guard (n ++ rest) k := by
    rcases hn with rfl | rfl
    · exact skips_char (by decide) _
    · exact skips_char (by decide) _
  rw [command_last hv hk, alts_fail (keep_fail (ignored_blank hn rest))]
  exact alts_ok (keep_ok (by rw [bind_ok (nl_ok hn)]; rfl))

/-- One command, in the shape the parser gives it. -/
inductive Steps : St → Text → List Item → St → Text → Prop
  | one {s s' : St} {t r : Text} {i : Item} : command s t = .ok (i, s') r → r.length < t.length → Steps s t [i] s' r
  | two {s s' s'' : St} {t r u : Text} {i j : Item} : command s t = .ok (i, s') r → r.length < t.length →
      command s' r = .ok (j, s'') u → u.length < r.length → Steps s t [i, j] s'' u

theorem Steps.commands {s s' s'' : St} {t r u : Text} {is js : List Item} (h : Steps s t is s' r)
    (hr : commands s' r = .ok (js, s'') u) : commands s t = .ok (is ++ js, s'') u := by
  cases h with
  | one h1 h2 => exact commands_step h1 h2 hr
  | two h1 h2 h3 h4 => exact commands_step h1 h2 (commands_step h3 h4 hr)

theorem sta_length {w : String} {wl : List String} {t : Text} (hw : Word w) :
    ∀ (h : Sta tr rest (w :: wl) t), rest.length < t.length := by
  rintro ⟨t', rfl, h⟩
  have : ∀ (wl : List String) (t' : Text), Aft tr rest wl t' → rest.length ≤ t'.length := by
    intro wl
    induction wl with
    | nil => rintro t' ⟨b, n, -, -, -, rfl⟩; simp; omega
    | cons w wl ih =>
      rintro t' ⟨b, t'', -, -, rfl, h⟩
      have := ih t'' h
      simp; omega
  have h1 := this wl t' h
  have h2 : 0 < w.toList.length := List.length_pos_iff.2 hw.1
  rw [List.length_append]
  omega

theorem cmd_read {s s' : St} {t : List Char} {is : List Item} (h : Cmd s t is s') (he : s.env.WF) (ng : NameGuard s.env.guard)
    (hr : StartOK rest) : ∃ is', SameItems is is' ∧ Steps s (t ++ rest) is' s' rest := by
  have hg := he.guardOk
  have same1 : ∀ i : Item, SameItems [i] [i] := fun i => .cons _ _ _ _ (.other i) .nil
  have lb : ∀ {k : String} {wl : List String} {l : List Char} {v : Text}, Bare (k :: wl) l → Word k →
      v.length < (l ++ v).length := fun hl hk => sta_length hk (sta_of_bare hl)
  have ll : ∀ {k : String} {wl : List String} {l : List Char} {v : Text}, Line (k :: wl) l → Word k →
      v.length < (l ++ v).length := fun hl hk => sta_length hk (sta_of_line hl)
  have short : ∀ {a : List Char} (b : List Char), a ≠ [] → rest.length < (a ++ b ++ rest).length := by
    intro a b ha
    have := List.length_pos_iff.2 ha
    simp only [List.length_append]; omega
  have shortB : ∀ {k : String} {wl : List String} {l : List Char} (b : List Char), Bare (k :: wl) l → Word k →
      rest.length < (l ++ b ++ rest).length := by
    intro k wl l b hl hk
    apply short
    rintro rfl
    have := lb (v := ([] : Text)) hl hk
    simp at this
  have shortL : ∀ {k : String} {wl : List String} {l : List Char} (b : List Char), Line (k :: wl) l → Word k →
      rest.length < (l ++ b ++ rest).length := by
    intro k wl l b hl hk
    apply short
    rintro rfl
    have := ll (v := ([] : Text)) hl hk
    simp at this
  cases h with
  | version p v hp hv =>
    refine ⟨_, same1 _, .one (r := rest) ?_ ?_⟩
    · unfold command
      exact alts_ok (keep_ok (version_read hp hv rest))
    · exact short _ (by rcases hp with rfl | rfl <;> decide)
  | hostname w _ hw hl =>
    obtain ⟨hv, hk⟩ := word_ctx hg (by decide) (sta_of_bare (rest := rest) hl)
    exact ⟨_, same1 _, .one (command_hostname hv (keep_ok (hostname_read hg hw hl rest))) (lb hl (kwWord (by decide)))⟩
  | domain w _ hw hl =>
    obtain ⟨hv, hk⟩ := word_ctx hg (by decide) (sta_of_bare (rest := rest) hl)
    obtain ⟨c, n, hc, hln, hn, hd⟩ := domain_read hg hw hl rest
    have hlen : (n ++ rest).length < (t ++ rest).length := by
      rw [hln]
      have := List.length_pos_iff.2 hc
      simp only [List.length_append]
      omega
    exact ⟨_, .cons _ _ _ _ (.other _) (same1 _), .two (command_domain hv (hk _ (by decide) (by decide)) (keep_ok hd)) hlen
      (command_blank hn rest) (by rcases hn with rfl | rfl <;> (simp; try omega))⟩
  | interface w l t vs i hw hl ht hi =>
    obtain ⟨hv, hk⟩ := word_ctx hg (by decide) (sta_of_bare (rest := t ++ rest) hl)
    rw [← List.append_assoc] at hv hk
    exact ⟨_, same1 _, .one (command_interface hv hk (by
      rw [List.append_assoc]; exact interface_read hg hw hl ht hi hr.1)) (shortB _ hl (kwWord (by decide)))⟩
  | name w n a _ hw hn hl =>
    obtain ⟨hv, hk⟩ := word_ctx hg (by decide) (sta_of_bare (rest := rest) hl)
    exact ⟨_, same1 _, .one (command_name hv hk (name_read hg hw hn hl rest)) (lb hl (kwWord (by decide)))⟩
  | nameDescription w n a l d hw hn hl hne hd =>
    have hrd := nameDescription_read hg hw hn hl hne hd rest
    have hst : ∃ b u, b ≠ [] ∧ Blanks b ∧ l ++ (d ++ ['\n']) ++ rest = "name".toList ++ (b ++ u) := by
      cases hl with
      | cons _ b _ t' h1 h2 _ => exact ⟨b, t' ++ (d ++ ['\n']) ++ rest, h1, h2, by simp⟩
    obtain ⟨b, u, hb1, hb2, hst⟩ := hst
    have wn : Word "name" := kwWord (by decide)
    refine ⟨_, same1 _, .one (command_name ?_ ?_ hrd) ?_⟩
    · rw [hst]; exact version_no_word wn (by decide) _
    · rw [hst]; exact fun k hk h => skips_word hg wn (blanks_end hb1 hb2) k hk (Ne.symm h)
    · obtain ⟨u, rfl⟩ := spaced_first hl
      exact short _ (by simp)
  | timeRange w l t vs hw hl hm =>
    obtain ⟨hv, hk⟩ := word_ctx hg (by decide) (sta_of_bare (rest := t ++ rest) hl)
    rw [← List.append_assoc] at hv hk
    exact ⟨_, same1 _, .one (command_timeRange hv hk (timeRange_read he hw hl hm hr.1)) (shortB _ hl (kwWord (by decide)))⟩
  | netObj n ws l x dt h d hn hl ho hx hd =>
    obtain ⟨hv, hk⟩ := word_ctx hg (by decide) (sta_of_bare (rest := ' ' :: (x ++ dt) ++ rest) hl)
    rw [← List.append_assoc] at hv hk
    exact ⟨_, same1 _, .one (command_object hv hk (objectNetwork_read he hn hl ho hx hd hr.1)) (shortB _ hl (kwWord (by decide)))⟩
  | netObjNat n ws nw l x y dt h a d hn hl ho hx ha hy hd =>
    obtain ⟨hv, hk⟩ := word_ctx hg (by decide) (sta_of_bare (rest := ' ' :: (x ++ (' ' :: (y ++ dt))) ++ rest) hl)
    rw [← List.append_assoc] at hv hk
    exact ⟨_, same1 _, .one (command_object hv hk (objectNetworkNat_read he hn hl ho hx ha hy hd hr.1))
      (shortB _ hl (kwWord (by decide)))⟩
  | natOfObj n nw l y dt a d hn hl ha hy hd =>
    obtain ⟨hv, hk⟩ := word_ctx hg (by decide) (sta_of_bare (rest := ' ' :: (y ++ dt) ++ rest) hl)
    rw [← List.append_assoc] at hv hk
    exact ⟨_, same1 _, .one (command_object hv hk (objectNatOnly_read he hn hl ha hy hd hr.1))
      (shortB _ hl (kwWord (by decide)))⟩
  | nat ws c n _ hw hc hl =>
    have hrd := nat_read he ng.symbols hw hc hl rest
    cases hw
    obtain ⟨hv, hk⟩ := word_ctx hg (by decide) (sta_of_line (rest := rest) hl)
    exact ⟨_, same1 _, .one (command_nat hv hk hrd) (ll hl (kwWord (by decide)))⟩
  | natDescription ws c n l b d hw hl hb hb' hd hh hc =>
    have hrd := natDescr_read he ng.symbols hw hb hb' hd hh hc hl rest
    have hst : ∃ b0 u, b0 ≠ [] ∧ Blanks b0 ∧ l ++ (b ++ (d ++ ['\n'])) ++ rest = "nat".toList ++ (b0 ++ u) := by
      cases hw
      cases hl with
      | cons _ b0 _ t' h1 h2 _ => exact ⟨b0, t' ++ (b ++ (d ++ ['\n'])) ++ rest, h1, h2, by simp⟩
    obtain ⟨b0, u, hb1, hb2, hst⟩ := hst
    have wn : Word "nat" := kwWord (by decide)
    refine ⟨_, same1 _, .one (command_nat ?_ ?_ hrd) ?_⟩
    · rw [hst]; exact version_no_word wn (by decide) _
    · rw [hst]; exact fun k hk h => skips_word hg wn (blanks_end hb1 hb2) k hk (Ne.symm h)
    · simp; omega
  | natPix w i b u hp hk hb hb' hu =>
    have hrd := natPix_read he hp hk hb hb' hu rest
    have wn : Word "nat" := kwWord (by decide)
    have e : "nat".toList ++ (b ++ ('(' :: (w.toList ++ ')' :: (u ++ ['\n'])))) ++ rest =
      "nat".toList ++ (b ++ ('(' :: (w.toList ++ ')' :: (u ++ '\n' :: rest)))) := by simp
    rw [e]
    refine ⟨_, .cons _ _ _ _ (.other _) (same1 _), .two (command_nat (version_no_word wn (by decide) _)
      (fun k hk h => skips_word hg wn (blanks_end hb hb') k hk (Ne.symm h)) hrd) ?_ (command_blank (n := ['\n']) (Or.inl rfl) rest) ?_⟩
    · simp; omega
    · simp
  | svcObj n ws l x dt v d hn hl ho hx hd =>
    obtain ⟨hv, hk⟩ := word_ctx hg (by decide) (sta_of_bare (rest := ' ' :: (x ++ dt) ++ rest) hl)
    rw [← List.append_assoc] at hv hk
    exact ⟨_, same1 _, .one (command_object hv hk (objectService_read he hn hl ho hx hd hr.1)) (shortB _ hl (kwWord (by decide)))⟩
  | netGroup n l dt t d vs hn hl hd hm =>
    obtain ⟨hv, hk⟩ := word_ctx hg (by decide) (sta_of_line (rest := dt ++ t ++ rest) hl)
    rw [← List.append_assoc] at hv hk
    exact ⟨_, same1 _, .one (command_objectGroup hv hk (netGroup_read he hn hl hd hm hr.1)) (shortL _ hl (kwWord (by decide)))⟩
  | portGroup n p l dt t d vs hn hp hl hd hm =>
    obtain ⟨hv, hk⟩ := word_ctx hg (by decide) (sta_of_line (rest := dt ++ t ++ rest) hl)
    rw [← List.append_assoc] at hv hk
    exact ⟨_, same1 _, .one (command_objectGroup hv hk (portGroup_read he hn hp hl hd hm hr.1)) (shortL _ hl (kwWord (by decide)))⟩
  | svcGroup n l dt t d vs hn hl hd hm =>
    obtain ⟨hv, hk⟩ := word_ctx hg (by decide) (sta_of_line (rest := dt ++ t ++ rest) hl)
    rw [← List.append_assoc] at hv hk
    exact ⟨_, same1 _, .one (command_objectGroup hv hk (svcGroup_read he hn hl hd hm hr.1)) (shortL _ hl (kwWord (by decide)))⟩
  | icmpGroup n l dt t d vs hn hl hd hm =>
    obtain ⟨hv, hk⟩ := word_ctx hg (by decide) (sta_of_line (rest := dt ++ t ++ rest) hl)
    rw [← List.append_assoc] at hv hk
    exact ⟨_, same1 _, .one (command_objectGroup hv hk (icmpGroup_read he hn hl hd hm hr.1)) (shortL _ hl (kwWord (by decide)))⟩
  | protoGroup n l dt t d vs hn hl hd hm =>
    obtain ⟨hv, hk⟩ := word_ctx hg (by decide) (sta_of_line (rest := dt ++ t ++ rest) hl)
    rw [← List.append_assoc] at hv hk
    exact ⟨_, same1 _, .one (command_objectGroup hv hk (protoGroup_read he hn hl hd hm hr.1)) (shortL _ hl (kwWord (by decide)))⟩
  | rule rt l rs ws r hrt hw hl =>
    have wa : Word "access-list" := kwWord (by decide)
    by_cases hne : rs = []
    · subst hne
      cases hrt
      obtain ⟨wl, rfl⟩ := ruleWords_first hw
      obtain ⟨hv, hk⟩ := word_ctx hg (by decide) (sta_of_line (rest := rest) hl)
      obtain ⟨d, h1, h2⟩ := C66_line_read_as_written s.env he _ r hw _ hl rest
      have hrem : r.remark = [] := ruleWords_remark hw
      refine ⟨[.rule { r with options := d }], .cons _ _ _ _ (.rule _ _ h1 ?_) .nil, .one (command_rule hv hk h2) (ll hl wa)⟩
      rw [← hrem]
    · obtain ⟨u, rfl, hu⟩ := remarkLines_start hrt hne
      obtain ⟨d, h1, h2⟩ := C67_remarks_attached s.env he _ r hw _ hl _ rs hrt hne rest
      have et : "access-list".toList ++ u ++ l ++ rest = "access-list".toList ++ (u ++ (l ++ rest)) := by simp
      refine ⟨[.rule { r with options := d, remark := rs }], .cons _ _ _ _ (.rule _ _ h1 rfl) .nil, .one (command_rule ?_ ?_ (by
        rw [List.append_assoc]; exact h2)) ?_⟩
      · rw [et]; exact version_no_word wa (by decide) _
      · rw [et]; exact fun k hk h => skips_word hg wa (hu _) k hk (Ne.symm h)
      · exact short _ (by simp)
  | accessGroup n d i _ hn hd hi hl =>
    obtain ⟨hv, hk⟩ := word_ctx hg (by decide) (sta_of_line (rest := rest) hl)
    exact ⟨_, same1 _, .one (command_accessGroup hv hk (accessGroup_read hg hn hd hi hl rest)) (ll hl (kwWord (by decide)))⟩
  | accessGroupGlobal n _ hn hl =>
    obtain ⟨hv, hk⟩ := word_ctx hg (by decide) (sta_of_line (rest := rest) hl)
    exact ⟨_, same1 _, .one (command_accessGroup hv hk (accessGroupGlobal_read hg hn hl rest)) (ll hl (kwWord (by decide)))⟩
  | ignored k f u hk hc hu =>
    have wk := ignoredList_word _ hk
    have hne : k.toList ≠ [] := wk.1
    have nk : ∀ kt ∈ ignoredList, kt.1 ∉ [":", "!", "Cryptochecksum:"] → kt.1 ∉ keywords ∧
      ∀ c ∈ kt.1.toList.head?, c ≠ 'A' ∧ c ≠ 'F' := by decide +kernel
    obtain ⟨n1, n2⟩ := nk _ hk hc
    refine ⟨_, same1 _, .one ?_ (short _ hne)⟩
    rw [command_last]
    · exact alts_ok (keep_ok (ignored_read hg hk hu hr))
    · rw [List.append_assoc]; exact version_no_word wk n2 _
    · rw [List.append_assoc]
      exact fun k' hk' => skips_word hg wk (tail_eow hu rest) k' hk' (by rintro rfl; exact n1 hk')
  | comment k u hk hu =>
    have hne : k.toList ≠ [] := (by decide : ∀ k ∈ [":", "!", "Cryptochecksum:"], k.toList ≠ []) k hk
    refine ⟨_, same1 _, .one ?_ (short _ hne)⟩
    rw [command_last]
    · exact alts_ok (keep_ok (comment_read ng.symbols hk hu rest))
    · simp only [List.mem_cons, List.not_mem_nil, or_false] at hk
      rcases hk with rfl | rfl | rfl <;> exact version_no (by intro c hc; simp at hc; subst hc; decide)
    · simp only [List.mem_cons, List.not_mem_nil, or_false] at hk
      rcases hk with rfl | rfl | rfl
      · exact skips_char (c := ':') (by decide) _
      · exact skips_char (c := '!') (by decide) _
      · exact skips_char (c := 'C') (by decide) _
  | blank n hn => exact ⟨_, same1 _, .one (command_blank hn rest) (by rcases hn with rfl | rfl <;> (simp; try omega))⟩

/-! ## remarks that stand alone -/

theorem skip_prefix {t : Text} {k : String} (h : ¬ k.toList <+: t) : Skip g t k := by
  intro β f
  apply bind_fail
  unfold tok
  cases hx : token g t k with
  | none => rfl
  | some p => exact absurd ⟨_, (token_inv hx).2.symm⟩ h

theorem remark_no_ether {e : Env} (he : e.WF) {text : List Char} {rs : List (List Char)} (h : RemarkLines text rs)
    (hne : rs ≠ []) (t : Text) : ruleEthertype e (text ++ t) = .fail := by
  have hg := he.guardOk
  cases h with
  | nil => exact absurd rfl hne
  | cons i h r t' rs hi hs hr _ =>
    cases hs with
    | cons w b1 ws t1 h1 hb1 hs =>
      cases hs with
      | cons w b2 ws t2 h2 hb2 hs =>
        cases hs with
        | one =>
          have e1 : "access-list".toList ++ (b1 ++ (i.toList ++ (b2 ++ "remark".toList))) ++ (' ' :: (r ++ '\n' :: t')) ++ t =
              "access-list".toList ++ (b1 ++ (i.toList ++ (b2 ++ ("remark".toList ++ (' ' :: (r ++ '\n' :: t') ++ t))))) := by
            simp only [List.append_assoc]
          have hh := head_text hg hi h1 hb1 h2 hb2
            (word_head (w := "remark") (word_of_decide (by decide +kernel)) (' ' :: (r ++ '\n' :: t') ++ t))
          rw [e1]
          unfold ruleEthertype
          rw [bind_ok hh]
          exact bind_fail (tok_no hg (noBlank_of_decide (by decide +kernel)) ⟨_, Or.inl rfl⟩ (by decide +kernel))
        | cons w b ws t h hb hs => cases hs

theorem remarks_alone {s : St} (he : s.env.WF) {t : List Char} {rs : List (List Char)} (h : RemarkLines t rs) (hne : rs ≠ [])
    (hn : ¬ "access-list".toList <+: rest) :
    command s (t ++ rest) = .ok (.remarks rs, s) rest ∧ rest.length < (t ++ rest).length := by
  have hg := he.guardOk
  have hsk : Skip s.env.guard rest "access-list" := skip_prefix hn
  have hh := head_no hsk
  obtain ⟨n1, n2, n3⟩ := remark_no_rule he h hne rest
  have n4 := remark_no_ether he h hne rest
  have hm : many1 (remarkLine s.env) (t ++ rest) = .ok rs rest := by
    have hrd := remarks_read he h (remarkLine_no hsk)
    cases hx : rs with
    | nil => exact absurd hx hne
    | cons r0 rs0 =>
      subst hx
      rw [many] at hrd
      unfold many1
      cases hp : remarkLine s.env (t ++ rest) with
      | fail => rw [hp] at hrd; simp at hrd
      | raise e => rw [hp] at hrd; simp at hrd
      | ok a r =>
        rw [hp] at hrd
        simp only at hrd ⊢
        split at hrd
        · split at hrd
          · simpa using hrd
          · cases hrd
          · cases hrd
        · simp at hrd
  have rf : ∀ p : P (Option PRule), p rest = .fail → remarked s.env p (t ++ rest) = .fail := by
    intro p hp
    unfold remarked
    rw [bind_ok hm]
    exact bind_fail hp
  have ha : accessList s.env (t ++ rest) = .fail := by
    unfold accessList
    rw [alts_fail (rf _ (bind_fail (ruleExtended_no hh))), alts_fail (bind_fail n1),
      alts_fail (rf _ (bind_fail (ruleStandard_no hh))), alts_fail (bind_fail n2),
      alts_fail (rf _ (bind_fail (ruleWebtype_no hh))), alts_fail (bind_fail n3),
      alts_fail (rf _ (bind_fail (ruleEthertype_no hh))), alts_fail (bind_fail n4)]
    rfl
  obtain ⟨u, rfl, hu⟩ := remarkLines_start h hne
  have wa : Word "access-list" := kwWord (by decide)
  have h0 : 0 < "access-list".toList.length := by decide
  refine ⟨command_remarks ?_ ?_ ha hm, by simp only [List.length_append]; omega⟩
  · rw [List.append_assoc]; exact version_no_word wa (by decide) _
  · rw [List.append_assoc]; exact fun k hk h => skips_word hg wa (hu _) k hk (Ne.symm h)

/-! ## the whole text -/

theorem file_read {s s' : St} {t : List Char} {is : List Item} (h : File s t is s') (he : s.env.WF) (ng : NameGuard s.env.guard) :
    ∃ is', SameItems is is' ∧ commands s t = .ok (is', s') [] := by
  induction h with
  | nil s => exact ⟨[], .nil, commands_nil s⟩
  | cmd s s' s'' t u is js hc hf ih =>
    obtain ⟨hw, hg⟩ := cmd_wf hc he
    obtain ⟨js', j1, j2⟩ := ih hw (by rw [hg]; exact ng)
    obtain ⟨is', i1, i2⟩ := cmd_read hc he ng (file_start hf)
    exact ⟨is' ++ js', sameItems_append i1 j1, i2.commands j2⟩
  | remarks s s' t u rs js hr hne hn hf ih =>
    obtain ⟨js', j1, j2⟩ := ih he ng
    obtain ⟨h1, h2⟩ := remarks_alone he hr hne hn
    exact ⟨_, .cons _ _ _ _ (.other _) j1, commands_step h1 h2 j2⟩

end Acltk.FwsmText
