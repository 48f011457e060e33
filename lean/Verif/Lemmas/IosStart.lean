import Verif.Lemmas.FwsmRefuse
import Verif.Props.IosFile
/-!
# IOS texts with rules are refused by the FWSM parser
-/
namespace Acltk.IosText
open Acltk Acltk.Lookup Acltk.Peg Acltk.AclText
open Acltk.FwsmText (St Bare LineRest Descr Members Indented LineStart Refused)

theorem LineStart.nil : LineStart [] := Or.inl rfl

theorem LineStart.snoc (a : List Char) : LineStart (a ++ ['\n']) := Or.inr ⟨a, rfl⟩

theorem LineStart.app (a : List Char) {b : List Char} (h : LineStart b) (hb : b ≠ []) : LineStart (a ++ b) := by
  rcases h with rfl | ⟨c, rfl⟩
  · exact absurd rfl hb
  · exact Or.inr ⟨a ++ c, by simp⟩

theorem LineStart.append {a b : List Char} (ha : LineStart a) (hb : LineStart b) : LineStart (a ++ b) := by
  rcases hb with rfl | ⟨c, rfl⟩
  · simpa using ha
  · exact Or.inr ⟨a ++ c, by simp⟩

theorem LineStart.cons (c : Char) {b : List Char} (h : LineStart b) (hb : b ≠ []) : LineStart (c :: b) :=
  LineStart.app [c] h hb

theorem LineStart.nl {b : List Char} (h : LineStart b) : LineStart ('\n' :: b) :=
  LineStart.append (a := ['\n']) (Or.inr ⟨[], rfl⟩) h

/-- The text ends with a line feed. -/
def EndNl (t : List Char) : Prop := ∃ a, t = a ++ ['\n']

theorem EndNl.start {t : List Char} (h : EndNl t) : LineStart t := Or.inr h

theorem EndNl.app (a : List Char) {b : List Char} (h : EndNl b) : EndNl (a ++ b) := by
  obtain ⟨c, rfl⟩ := h
  exact ⟨a ++ c, by simp⟩

theorem EndNl.cons (c : Char) {b : List Char} (h : EndNl b) : EndNl (c :: b) := EndNl.app [c] h

theorem EndNl.before {a b : List Char} (h : EndNl a) (hb : LineStart b) : EndNl (a ++ b) := by
  rcases hb with rfl | ⟨c, rfl⟩
  · simpa using h
  · exact ⟨a ++ c, by simp⟩

theorem EndNl.snoc (a : List Char) : EndNl (a ++ ['\n']) := ⟨a, rfl⟩

theorem EndNl.one : EndNl ['\n'] := ⟨[], rfl⟩

theorem EndNl.nl {b : List Char} (h : LineStart b) : EndNl ('\n' :: b) := EndNl.before (a := ['\n']) EndNl.one h

theorem endNl_or {n : List Char} (h : n = ['\n'] ∨ n = ['\r', '\n']) : EndNl n := by
  rcases h with rfl | rfl
  · exact ⟨[], rfl⟩
  · exact ⟨['\r'], rfl⟩

theorem bare_endNl {ws : List String} {l : List Char} (h : Bare ws l) : EndNl l := by
  obtain ⟨t, n, -, hn, rfl⟩ := h
  exact EndNl.app _ (endNl_or hn)

theorem line_endNl {ws : List String} {l : List Char} (h : Line ws l) : EndNl l := by
  obtain ⟨t, b, n, -, -, hn, rfl⟩ := h
  exact EndNl.app _ (EndNl.app _ (endNl_or hn))

theorem descr_start {t : List Char} {d : Option (List Char)} (h : Descr t d) : LineStart t := by
  cases h with
  | none => exact LineStart.nil
  | some b d _ _ _ _ _ => exact EndNl.start (.cons _ (.app _ (.app _ (.snoc _))))

theorem members_start {α : Type} {M : List String → α → Prop} {L : List String → List Char → Prop}
    (hL : ∀ ws l, L ws l → EndNl l) {t : List Char} {vs : List α} (h : Members M L t vs) : LineStart t := by
  induction h with
  | nil => exact LineStart.nil
  | cons ws v l t vs _ hl _ ih => exact EndNl.start (.cons _ (.before (hL _ _ hl) ih))

theorem netLine_endNl {ws : List String} {l : List Char} (h : NetLine ws l) : EndNl l := by
  cases h with
  | bare h => exact bare_endNl h
  | line _ h => exact line_endNl h

theorem indented_start {t : List Char} (h : Indented t) : LineStart t := by
  induction h with
  | nil => exact LineStart.nil
  | cons l t _ _ ih => exact EndNl.start (.cons _ (.app _ (.nl ih)))

theorem ifaceLine_endNl {t : List Char} {v : Ifc.Line} (h : IfaceLine t v) : EndNl t := by
  cases h with
  | description b d _ _ _ _ => exact .app _ (.app _ (.snoc _))
  | ip _ _ _ _ _ _ _ _ _ _ _ h => exact line_endNl h
  | accessGroup _ _ _ _ _ h => exact line_endNl h
  | ip6 _ _ _ _ _ _ _ _ _ _ h => exact line_endNl h
  | ip6Host _ _ _ _ _ _ h => exact line_endNl h
  | trafficFilter _ _ _ _ _ h => exact line_endNl h
  | switchMode => exact .app _ (.snoc _)
  | trunkSet => exact .app _ (.app _ (.app _ (.snoc _)))
  | trunkAdd => exact .app _ (.app _ (.app _ (.snoc _)))
  | otherAddress => exact .app _ (.app _ (.app _ (.app _ (.app _ (.snoc _)))))
  | otherIp => exact .app _ (.app _ (.app _ (.snoc _)))
  | otherSwitch => exact .app _ (.app _ (.app _ (.snoc _)))
  | other => exact .app _ (.snoc _)

theorem ifaceLines_start {t : List Char} {vs : List Ifc.Line} (h : IfaceLines t vs) : LineStart t := by
  induction h with
  | nil => exact LineStart.nil
  | cons l t v vs hl _ ih => exact EndNl.start (.cons _ (.before (ifaceLine_endNl hl) ih))

theorem numRemarks_lines {t : List Char} {rs : List (List Char)} (h : NumRemarks t rs) : LineStart t := by
  induction h with
  | nil => exact LineStart.nil
  | cons i h b r t rs _ _ _ _ _ _ _ ih => exact EndNl.start (.app _ (.app _ (.app _ (.nl ih))))

theorem remarks_start {t : List Char} {rs : List (List Char)} (h : Remarks t rs) : LineStart t := by
  induction h with
  | nil => exact LineStart.nil
  | cons sq h r t rs _ _ _ _ ih => exact EndNl.start (.cons _ (.app _ (.cons _ (.app _ (.nl ih)))))

theorem entries_start {B : List String → IRule → Prop} {t : List Char} {rs : List IRule} (h : Entries B t rs) : LineStart t := by
  induction h with
  | nil => exact LineStart.nil
  | cons rt l t rs sq ws r l' hr _ _ hl _ ih => exact EndNl.start (.app _ (.cons _ (.before (bare_endNl hl) ih)))

theorem tail_endNl {f : Tail} {t : List Char} (h : TailText f t) : EndNl t := by
  cases h with
  | ws => exact .cons _ (.snoc _)
  | eol => exact .snoc _
  | bare _ h => exact endNl_or h
  | wsIndent c u l _ _ h => exact .cons _ (.app _ (.nl (indented_start h)))
  | eolIndent u l _ h => exact .app _ (.nl (indented_start h))
  | bareIndent n l hn h => exact .before (endNl_or hn) (indented_start h)

/-- Every command ends with a line feed. -/
theorem cmd_endNl {s s' : St} {t : List Char} {is : List Item} (h : Cmd s t is s') : EndNl t := by
  cases h with
  | version => exact .app _ (.snoc _)
  | hostname _ _ _ h => exact bare_endNl h
  | domain _ _ _ h => exact bare_endNl h
  | ipDomain _ _ _ _ _ _ _ _ _ h => exact .app _ (.app _ (.app _ (.app _ (.app _ (endNl_or h)))))
  | interface _ _ _ _ _ _ h1 h2 _ => exact .before (bare_endNl h1) (ifaceLines_start h2)
  | netGroup _ _ _ _ _ _ _ h1 h2 h3 =>
    exact .before (line_endNl h1) (LineStart.append (descr_start h2) (members_start (fun _ _ => netLine_endNl) h3))
  | portGroup _ _ _ _ _ _ _ _ _ h1 h2 h3 =>
    exact .before (line_endNl h1) (LineStart.append (descr_start h2) (members_start (fun _ _ => bare_endNl) h3))
  | svcGroup _ _ _ _ _ _ _ h1 h2 h3 =>
    exact .before (line_endNl h1) (LineStart.append (descr_start h2) (members_start (fun _ _ => line_endNl) h3))
  | icmpGroup _ _ _ _ _ _ _ h1 h2 h3 =>
    exact .before (line_endNl h1) (LineStart.append (descr_start h2) (members_start (fun _ _ => bare_endNl) h3))
  | protoGroup _ _ _ _ _ _ _ h1 h2 h3 =>
    exact .before (line_endNl h1) (LineStart.append (descr_start h2) (members_start (fun _ _ => bare_endNl) h3))
  | rule _ _ _ _ _ _ _ h => exact .app _ (bare_endNl h)
  | extended _ _ _ _ _ h1 h2 => exact .before (bare_endNl h1) (entries_start h2)
  | standard _ _ _ _ _ h1 h2 => exact .before (bare_endNl h1) (entries_start h2)
  | ipv6List _ _ _ _ _ h1 h2 _ => exact .before (bare_endNl h1) (members_start (fun _ _ => bare_endNl) h2)
  | route _ _ _ _ _ _ _ _ _ _ _ _ _ _ _ _ _ h => exact bare_endNl h
  | routeMore => exact .app _ (.cons _ (.snoc _))
  | routeUnknown => exact .app _ (.snoc _)
  | ipDomainIgnored => exact .app _ (.app _ (.app _ (.snoc _)))
  | excluded => exact .app _ (.app _ (.app _ (.snoc _)))
  | ipIgnored _ _ _ _ _ _ _ h => exact .app _ (.app _ (.app _ (tail_endNl h)))
  | pool => exact .app _ (.app _ (.app _ (.app _ (.cons _ (.snoc _)))))
  | ipv6Routing => exact .app _ (.app _ (.app _ (.snoc _)))
  | ipv6Ignored => exact .app _ (.app _ (.app _ (.app _ (.snoc _))))
  | banner _ _ _ _ _ _ _ _ _ _ _ _ h => exact .app _ (.app _ (.app _ (.app _ (.cons _ (.app _ (.cons _ (endNl_or h)))))))
  | bannerCaret _ _ _ _ _ _ _ _ _ h =>
    exact .app _ (.app _ (.app _ (.app _ (.cons _ (.cons _ (.app _ (.cons _ (.cons _ (endNl_or h)))))))))
  | defineRange => exact .app _ (.app _ (.app _ (.snoc _)))
  | ignored _ _ _ _ _ h => exact .app _ (tail_endNl h)
  | comment => exact .app _ (.snoc _)
  | blank _ h => exact endNl_or h

/-- The item is a version line or holds a rule. -/
def Telling (i : Item) : Prop :=
  (∃ v, i = .base (.version v)) ∨ (∃ r, i = .rule r) ∨ ∃ r l, i = .rules (r :: l)

theorem entries_head {B : List String → IRule → Prop} {t : List Char} {rs : List IRule} (h : Entries B t rs) (hne : rs ≠ []) :
    ∃ z, t = ' ' :: z := by
  cases h with
  | nil => exact absurd rfl hne
  | cons rt l t rs sq ws r l' hr _ _ hl _ =>
    cases hr with
    | nil => exact ⟨_, rfl⟩
    | cons => exact ⟨_, rfl⟩

theorem members_head {α : Type} {M : List String → α → Prop} {L : List String → List Char → Prop} {t : List Char} {rs : List α}
    (h : Members M L t rs) (hne : rs ≠ []) : ∃ z, t = ' ' :: z := by
  cases h with
  | nil => exact absurd rfl hne
  | cons => exact ⟨_, rfl⟩

theorem spaced_noNl {ws : List String} {t : List Char} (h : Spaced ws t) (hw : ∀ w ∈ ws, '\n' ∉ w.toList) : '\n' ∉ t := by
  induction h with
  | one w => exact hw w (by simp)
  | cons w b ws t hb hb' _ ih =>
    have h1 := hw w (by simp)
    have h2 := ih fun w h => hw w (by simp [h])
    have h3 : '\n' ∉ b := by
      intro hm
      rcases hb' _ hm with e | e <;> exact absurd e (by decide)
    simp only [List.mem_append, not_or]
    exact ⟨h1, h3, h2⟩

theorem idWord_noNl {w : String} (h : IdWord w) : '\n' ∉ w.toList := by
  intro hm
  rcases h.2 _ hm with e | e
  · exact absurd e (by decide)
  · exact absurd e (by decide)

/-- A named list with entries. -/
theorem refused_named {g : Guard} {a l z u : List Char} {k : String} {ws : List String} (ha : LineStart a) (hk : k ∈ ["ip", "ipv6"])
    (hne : ws ≠ []) (hw : ∀ w ∈ ws, '\n' ∉ w.toList) (hb : Bare (k :: ws) l) (hz : ∃ y, z = ' ' :: y) :
    Refused g (a ++ (l ++ (z ++ u))) := by
  obtain ⟨t, n, hs, hn, rfl⟩ := hb
  obtain ⟨y, rfl⟩ := hz
  cases hs with
  | one => exact absurd rfl hne
  | cons _ b _ t hb hb' hs =>
    cases b with
    | nil => exact absurd rfl hb
    | cons c b =>
      have hc : c ∈ [' ', '\t'] := by
        rcases hb' c (by simp) with rfl | rfl <;> simp
      have h1 : '\n' ∉ b := by
        intro hm
        rcases hb' '\n' (by simp [hm]) with e | e <;> exact absurd e (by decide)
      have h2 := spaced_noNl hs hw
      rcases hn with rfl | rfl
      · exact FwsmText.refused_ip (v := b ++ t) (z := y ++ u) ha hk hc (by simp [h1, h2]) (by simp)
      · exact FwsmText.refused_ip (v := b ++ (t ++ ['\r'])) (z := y ++ u) ha hk hc (by simp [h1, h2]) (by simp)

theorem spaced_split {a b c : String} {ws : List String} {t : List Char} (h : Spaced (a :: b :: c :: ws) t) (hne : ws ≠ []) :
    ∃ h v, Spaced [a, b, c] h ∧ (∃ x y, v = x :: y ∧ (x = ' ' ∨ x = '\t')) ∧ t = h ++ v := by
  cases h with
  | cons _ b1 _ t1 hb1 hb1' hs1 =>
    cases hs1 with
    | cons _ b2 _ t2 hb2 hb2' hs2 =>
      cases hs2 with
      | one => exact absurd rfl hne
      | cons _ b3 _ t3 hb3 hb3' hs3 =>
        cases b3 with
        | nil => exact absurd rfl hb3
        | cons x y =>
          exact ⟨_, x :: (y ++ t3), .cons _ _ _ _ hb1 hb1' (.cons _ _ _ _ hb2 hb2' (.one _)), ⟨x, _, rfl, hb3' x (by simp)⟩,
            by simp⟩

theorem host_ne {e : Env} {ws : List String} {h : Host} (hw : HostWords e ws h) : ws ≠ [] := by
  cases hw <;> simp

theorem hostW_ne {e : Env} {ws : List String} {h : Host} (hw : HostW e ws h) : ws ≠ [] := by
  cases hw <;> simp

theorem proto_ne {e : Env} {ws : List String} {p : Proto} (hw : ProtoWords e ws p) : ws ≠ [] := by
  cases hw <;> simp

theorem numRule_words {e : Env} {ws : List String} {r : IRule} (h : NumRule e ws r) :
    ∃ i m l, IdWord i ∧ m ∈ ["permit", "deny"] ∧ l ≠ [] ∧ ws = "access-list" :: i :: m :: l := by
  cases h with
  | extended i ws r hi hb =>
    cases hb with
    | general m pw sw dw ow p s d o os hm hp _ _ _ _ _ _ _ _ =>
      exact ⟨i, m, _, extNumber_idWord hi, hm, by simp [proto_ne hp], rfl⟩
    | icmp m p sw dw cw ow s d c o os hm _ _ _ _ _ _ _ => exact ⟨i, m, _, extNumber_idWord hi, hm, by simp, rfl⟩
  | standard i ws r hi hb =>
    cases hb with
    | mk m sw ow s o os hm hs _ _ => exact ⟨i, m, _, stdNumber_idWord hi, hm, by simp [hostW_ne hs], rfl⟩

/-- A rule of a numbered list. -/
theorem refused_numbered {g : Guard} {e : Env} {a l u : List Char} {ws : List String} {r : IRule} (ha : LineStart a)
    (hw : NumRule e ws r) (hb : Bare ws l) : Refused g (a ++ (l ++ u)) := by
  obtain ⟨i, m, ws', hi, hm, hne, rfl⟩ := numRule_words hw
  obtain ⟨t, n, hs, hn, rfl⟩ := hb
  obtain ⟨h, v, hs3, ⟨x, y, rfl, hx⟩, rfl⟩ := spaced_split hs hne
  have hmw : IdWord m := by
    simp only [List.mem_cons, List.not_mem_nil, or_false] at hm
    rcases hm with rfl | rfl <;> exact ⟨by decide, by decide⟩
  have hmk : ∀ k ∈ ["extended", "standard", "webtype", "remark", "ethertype"],
      ¬ (m.toList.isPrefixOf k.toList = true ∨ k.toList.isPrefixOf m.toList = true) := by
    simp only [List.mem_cons, List.not_mem_nil, or_false] at hm
    rcases hm with rfl | rfl <;> decide +kernel
  have hh : '\n' ∉ h := spaced_noNl hs3 (by
    intro w hw
    simp only [List.mem_cons, List.not_mem_nil, or_false] at hw
    rcases hw with rfl | rfl | rfl
    · decide
    · exact idWord_noNl hi
    · exact idWord_noNl hmw)
  have hxn : x ≠ '\n' := by rcases hx with rfl | rfl <;> decide
  obtain ⟨y1, y2, hy, hy1⟩ := FwsmText.first_nl (a := y ++ n) (by
    rcases hn with rfl | rfl <;> simp)
  refine FwsmText.refused_accessList (l := h ++ x :: y1) (v := x :: y1) (z := '\n' :: (y2 ++ u)) hi hmw hmk hs3 ⟨x, y1, rfl, hx⟩ ha
    ?_ (Or.inr ⟨_, rfl⟩) rfl ?_
  · simp only [List.mem_append, List.mem_cons, not_or]
    exact ⟨hh, fun e => hxn e.symm, hy1⟩
  · have : y ++ (n ++ u) = y1 ++ '\n' :: (y2 ++ u) := by rw [← List.append_assoc, hy]; simp
    simp [this]

theorem version_words : ∀ w ∈ FwsmText.firstWords, ¬ (w.toList.isPrefixOf "version".toList = true ∨
    "version".toList.isPrefixOf w.toList = true) := by decide +kernel

/-- A command that tells. -/
theorem refused_cmd {g : Guard} {s s' : St} {a t u : List Char} {is : List Item} (ha : LineStart a) (h : Cmd s t is s')
    (hi : ∃ i ∈ is, Telling i) : Refused g (a ++ (t ++ u)) := by
  obtain ⟨i, hi, ht⟩ := hi
  cases h with
  | version v hv =>
    refine FwsmText.refused_unknown (x := 'v') (u := "ersion".toList ++ (v ++ '\n' :: u)) (by simp) ha (by decide) ?_
    intro w hw hp
    exact version_words w hw (FwsmText.prefix_either (u := v ++ '\n' :: u) hp)
  | rule rt l rs ws r hr hw hl =>
    have := refused_numbered (g := g) (u := u) (LineStart.append ha (numRemarks_lines hr)) hw hl
    simpa using this
  | extended n l t rs hn hl he =>
    simp only [List.mem_singleton] at hi
    subst hi
    have hne : rs ≠ [] := by
      rintro rfl
      rcases ht with ⟨v, e⟩ | ⟨r, e⟩ | ⟨r, l, e⟩ <;> cases e
    have := refused_named (g := g) (u := u) ha (by simp) (by simp) (by
      intro w hw
      simp only [List.mem_cons, List.not_mem_nil, or_false] at hw
      rcases hw with rfl | rfl | rfl
      · decide
      · decide
      · exact idWord_noNl hn) hl (entries_head he hne)
    simpa using this
  | standard n l t rs hn hl he =>
    simp only [List.mem_singleton] at hi
    subst hi
    have hne : rs ≠ [] := by
      rintro rfl
      rcases ht with ⟨v, e⟩ | ⟨r, e⟩ | ⟨r, l, e⟩ <;> cases e
    have := refused_named (g := g) (u := u) ha (by simp) (by simp) (by
      intro w hw
      simp only [List.mem_cons, List.not_mem_nil, or_false] at hw
      rcases hw with rfl | rfl | rfl
      · decide
      · decide
      · exact idWord_noNl hn) hl (entries_head he hne)
    simpa using this
  | ipv6List n l t rs hn hl he hne =>
    have := refused_named (g := g) (u := u) ha (by simp) (by simp) (by
      intro w hw
      simp only [List.mem_cons, List.not_mem_nil, or_false] at hw
      rcases hw with rfl | rfl
      · decide
      · exact idWord_noNl hn) hl (members_head he hne)
    simpa using this
  | _ =>
    exfalso
    simp only [List.mem_cons, List.not_mem_nil, or_false] at hi
    rcases ht with ⟨v, rfl⟩ | ⟨r, rfl⟩ | ⟨r, l, rfl⟩ <;> simp at hi

/-- An IOS text with a version line or a rule is refused by the FWSM parser. -/
theorem refused_file {g : Guard} {s s' : St} {t : List Char} {is : List Item} (h : File s t is s') (hi : ∃ i ∈ is, Telling i)
    (u : List Char) : ∀ a, LineStart a → Refused g (a ++ (t ++ u)) := by
  induction h with
  | nil => obtain ⟨i, hi, -⟩ := hi; cases hi
  | cmd s s' s'' t v is js hc _ ih =>
    intro a ha
    obtain ⟨i, hm, ht⟩ := hi
    rcases List.mem_append.1 hm with hm | hm
    · have := refused_cmd (g := g) (u := v ++ u) ha hc ⟨i, hm, ht⟩
      simpa using this
    · have := ih ⟨i, hm, ht⟩ (a ++ t) (LineStart.append ha (cmd_endNl hc).start)
      simpa using this

/-- A line feed at the end. -/
theorem file_snoc {s s' : St} {t : List Char} {is : List Item} (h : File s t is s') :
    File s (t ++ ['\n']) (is ++ [.base .nothing]) s' := by
  induction h with
  | nil s => exact .cmd _ _ _ ['\n'] [] [.base .nothing] [] (.blank _ (Or.inl rfl)) (.nil _)
  | cmd s s' s'' t u is js hc _ ih =>
    rw [List.append_assoc, List.append_assoc]
    exact .cmd _ _ _ _ _ _ _ hc ih

end Acltk.IosText
