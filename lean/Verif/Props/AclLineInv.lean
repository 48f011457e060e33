import Verif.Lemmas.PegInv
/-!
# C69: a rule comes from exactly one line
-/
namespace Acltk.Peg
open Acltk Acltk.Lookup

theorem starRests_max {q : Char → Bool} {t s : Text} {l : List Text} (h : starRests q t = s :: l) :
    ∀ c ∈ s.head?, q c = false := by
  induction t generalizing s l with
  | nil => simp [starRests] at h; rw [h.1]; simp
  | cons x t ih =>
    simp only [starRests] at h
    split at h
    · generalize hr : starRests q t = m at h
      cases m with
      | nil => exact absurd hr (by cases t with
        | nil => simp [starRests]
        | cons y t => simp only [starRests]; split <;> simp)
      | cons u m =>
        simp at h
        exact h.1 ▸ ih hr
    · rename_i hx
      simp at h
      obtain ⟨rfl, -⟩ := h
      simpa using hx

theorem pat_star_max {q : Char → Bool} {t r : Text} {a : List Char} (h : pat (.star q) t = .ok a r) :
    ∀ c ∈ r.head?, q c = false := by
  unfold pat at h
  simp only [Re.run] at h
  generalize hr : starRests q t = l at h
  cases l with
  | nil => cases h
  | cons s l => cases h; exact starRests_max hr

theorem ws_max {t r : Text} {a : Unit} (h : ws t = .ok a r) : ∀ c ∈ r.head?, c ≠ ' ' ∧ c ≠ '\t' := by
  unfold ws at h
  obtain ⟨b, s, h1, h2⟩ := bind_inv h
  cases h2
  unfold pat Re.plus at h1
  generalize hr : (Re.seq (.cls isWs) (.star isWs)).run t = l at h1
  cases l with
  | nil => cases h1
  | cons u l =>
    cases h1
    cases t with
    | nil => simp [Re.run] at hr
    | cons x t =>
      simp only [Re.run] at hr
      split at hr
      · simp at hr
        intro c hc
        have := starRests_max hr c hc
        simp [isWs] at this
        exact this
      · simp at hr

end Acltk.Peg

namespace Acltk.AclText
open Acltk Acltk.Lookup Acltk.Peg

/-- No name in the tables contains a line feed. -/
structure Env.Clean (e : Env) : Prop where
  names : ∀ p ∈ e.names, '\n' ∉ p.1.toList
  netObjs : ∀ p ∈ e.netObjs, '\n' ∉ p.1.toList
  netGroups : ∀ p ∈ e.netGroups, '\n' ∉ p.1.toList
  portGroups : ∀ p ∈ e.portGroups, '\n' ∉ p.1.toList
  svcGroups : ∀ p ∈ e.svcGroups, '\n' ∉ p.1.toList
  protoGroups : ∀ p ∈ e.protoGroups, '\n' ∉ p.1.toList
  svcObjs : ∀ p ∈ e.svcObjs, '\n' ∉ p.1.toList
  icmpGroups : ∀ p ∈ e.icmpGroups, '\n' ∉ p.1.toList
  timeRanges : ∀ p ∈ e.timeRanges, '\n' ∉ p.1.toList

section inline
variable {e : Env}

theorem inLine_refer {β : Type} {g : Guard} {term : Text → Bool} {d : Dict String β} (hd : ∀ p ∈ d, '\n' ∉ p.1.toList) :
    InLine (refer g term d) := by
  intro t a r h
  unfold refer at h
  generalize hr : reference g term (keys d) t = v at h
  cases v with
  | none => cases h
  | some x =>
    obtain ⟨n, s⟩ := x
    simp only at h
    unfold reference at hr
    generalize hi : internalIds g (keys d) t = w at hr
    cases w with
    | none => cases hr
    | some y =>
      obtain ⟨m, u⟩ := y
      simp only at hr
      split at hr
      · simp only [Option.some.injEq, Prod.mk.injEq] at hr
        obtain ⟨rfl, rfl⟩ := hr
        unfold internalIds at hi
        obtain ⟨k, hk, ht⟩ := List.exists_of_findSome?_eq_some hi
        obtain ⟨rfl, rfl⟩ := token_inv ht
        unfold descending at hk
        have hk' := (List.mergeSort_perm _ _).mem_iff.1 hk
        obtain ⟨p, hp, rfl⟩ := List.mem_map.1 hk'
        generalize dGet d p.1 = z at h
        cases z with
        | none => cases h
        | some v => cases h; exact ⟨_, rfl, hd p hp⟩
      · cases hr

theorem word_noNl {β : Type} {d : Dict String β} (hd : ∀ p ∈ d, Word p.1) : ∀ p ∈ d, '\n' ∉ p.1.toList :=
  fun p hp hm => (hd p hp).2 _ hm (by simp)

theorem inLine_ip4 : InLine ip4 :=
  (inLine_pat (e := ip4Re) (by
    simp only [ip4Re, octetRe, Re.optional, Re.chr, Re.rng, Re.Within]
    repeat' apply And.intro
    all_goals first
      | trivial
      | (intro c h e; subst e; revert h; decide))).bind (fun _ => inLine_act _)

theorem inLine_ip6 : InLine ip6 :=
  (inLine_pat (e := ip6Re) (by
    simp only [ip6Re, Re.chr, Re.plus, Re.Within]
    repeat' apply And.intro
    all_goals (intro c h e; subst e; revert h; decide))).bind (fun _ => inLine_act _)

theorem inLine_slashP : InLine slashP := by
  intro t a r h
  unfold slashP at h
  split at h
  · cases h; exact ⟨['/'], rfl, by decide⟩
  · cases h

theorem inLine_intP : InLine intP := inLine_pat (e := .plus Char.isDigit) (by
  simp only [Re.plus, Re.Within]
  constructor <;> (intro c h e; subst e; revert h; decide))

theorem inLine_identifier : InLine identifier := inLine_pat (by
  simp only [Re.Within]
  constructor <;> (intro c h e; subst e; revert h; decide))

theorem inLine_stringP : InLine stringP := inLine_pat (by
  simp only [Re.plus, Re.Within]
  constructor <;> (intro c h e; subst e; revert h; decide))

theorem inLine_aclHost (he : e.Clean) : InLine (aclHost e) := by
  have hn := he.names
  have n1 : InLine (nameWs e) := inLine_refer hn
  have n2 : InLine (nameSlash e) := inLine_refer hn
  apply inLine_alts
  intro p hp
  simp only [List.mem_cons, List.not_mem_nil, or_false] at hp
  rcases hp with rfl | rfl | rfl | rfl | rfl | rfl | rfl
  · refine (inLine_oneOf _ (by decide)).bind fun _ => inLine_ws.bind fun _ => (inLine_alts ?_).bind fun _ => inLine_pure _
    intro q hq
    simp only [List.mem_cons, List.not_mem_nil, or_false] at hq
    rcases hq with rfl | rfl | rfl | rfl
    · exact n1
    · exact n2
    · exact inLine_ip4
    · exact inLine_ip6
  · exact (inLine_tok _ (by decide)).bind fun _ => inLine_ws.bind fun _ => inLine_identifier.bind fun _ => inLine_pure _
  · exact (inLine_oneOf _ (by decide)).bind fun _ => inLine_pure _
  · exact (inLine_tok _ (by decide)).bind fun _ => inLine_ws.bind fun _ => inLine_refer he.netObjs
  · exact (inLine_tok _ (by decide)).bind fun _ => inLine_ws.bind fun _ => inLine_refer he.netGroups
  · exact InLine.bind (Reads.alt n1 inLine_ip4) fun _ => inLine_ws.bind fun _ => inLine_ip4.bind fun _ =>
      (inLine_act _).bind fun _ => inLine_pure _
  · exact InLine.bind (Reads.alt n2 inLine_ip6) fun _ => inLine_slashP.bind fun _ => inLine_intP.bind fun _ =>
      (inLine_act _).bind fun _ => inLine_pure _

theorem inLine_port (g : Guard) : InLine (port g) :=
  Reads.alt
    ((inLine_ahead _).bind fun _ => inLine_oneOf g (by decide +kernel) : InLine _)
    (inLine_intP.bind fun _ => (inLine_act _).bind fun _ => inLine_pure _ : InLine _)

theorem inLine_aclPort (he : e.Clean) : InLine (aclPort e) := by
  apply inLine_alts
  intro p hp
  simp only [List.mem_cons, List.not_mem_nil, or_false] at hp
  rcases hp with rfl | rfl | rfl | rfl
  · exact (inLine_tok _ (by decide)).bind fun _ => inLine_ws.bind fun _ => (inLine_refer he.svcGroups).bind fun _ => inLine_pure _
  · exact (inLine_tok _ (by decide)).bind fun _ => inLine_ws.bind fun _ => (inLine_refer he.portGroups).bind fun _ => inLine_pure _
  · exact (inLine_oneOf _ (by decide)).bind fun _ => inLine_ws.bind fun _ => (inLine_port _).bind fun _ => inLine_pure _
  · exact (inLine_tok _ (by decide)).bind fun _ => inLine_ws.bind fun _ => (inLine_port _).bind fun _ => inLine_ws.bind fun _ =>
      (inLine_port _).bind fun _ => (inLine_act _).bind fun _ => inLine_pure _

theorem inLine_node (he : e.Clean) : InLine (node e) :=
  (inLine_aclHost he).bind fun _ => (InLine.opt (inLine_ws.bind fun _ => inLine_aclPort he)).bind fun _ => inLine_act _

theorem inLine_aclProtocol (he : e.Clean) : InLine (aclProtocol e) := by
  apply inLine_alts
  intro p hp
  simp only [List.mem_cons, List.not_mem_nil, or_false] at hp
  rcases hp with rfl | rfl | rfl
  · exact (inLine_tok _ (by decide)).bind fun _ => inLine_ws.bind fun _ =>
      Reads.alt ((inLine_refer he.svcGroups).bind fun _ => inLine_pure _ : InLine _)
        ((inLine_refer he.protoGroups).bind fun _ => inLine_pure _ : InLine _)
  · exact (inLine_tok _ (by decide)).bind fun _ => inLine_ws.bind fun _ => (inLine_refer he.svcObjs).bind fun _ => inLine_pure _
  · exact Reads.alt ((inLine_oneOf _ (by decide +kernel)).bind fun _ => inLine_pure _ : InLine _)
      (inLine_intP.bind fun _ => (inLine_act _).bind fun _ => inLine_pure _ : InLine _)

theorem inLine_icmpType (g : Guard) : InLine (icmpType g) :=
  Reads.alt
    ((inLine_ahead _).bind fun _ => inLine_oneOf g (by decide +kernel) : InLine _)
    (inLine_intP.bind fun _ => (inLine_act _).bind fun _ => inLine_pure _ : InLine _)

theorem inLine_icmpOptions (he : e.Clean) : InLine (icmpOptions e) := by
  apply inLine_alts
  intro p hp
  simp only [List.mem_cons, List.not_mem_nil, or_false] at hp
  rcases hp with rfl | rfl | rfl
  · exact inLine_ws.bind fun _ => (inLine_tok _ (by decide)).bind fun _ => inLine_ws.bind fun _ =>
      (inLine_refer he.icmpGroups).bind fun _ => inLine_pure _
  · exact inLine_ws.bind fun _ => (inLine_icmpType _).bind fun _ => (InLine.opt (inLine_ws.bind fun _ => inLine_intP.bind fun _ =>
      (inLine_act _).bind fun _ => inLine_pure _)).bind fun _ => inLine_pure _
  · exact inLine_pure _

theorem inLine_logOption (g : Guard) : InLine (logOption g) := by
  apply inLine_alts
  intro p hp
  simp only [List.mem_cons, List.not_mem_nil, or_false] at hp
  rcases hp with rfl | rfl | rfl | rfl
  · exact (inLine_oneOf _ (by decide)).bind fun _ => inLine_pure _
  · exact (inLine_tok _ (by decide)).bind fun _ => inLine_ws.bind fun _ => inLine_intP.bind fun _ => inLine_pure _
  · exact (inLine_oneOf _ (by decide)).bind fun _ => inLine_pure _
  · exact inLine_pure _

theorem inLine_aclOption (he : e.Clean) : InLine (aclOption e) := by
  apply inLine_alts
  intro p hp
  simp only [List.mem_cons, List.not_mem_nil, or_false] at hp
  rcases hp with rfl | rfl | rfl | rfl
  · exact (inLine_tok _ (by decide)).bind fun _ => (InLine.many (inLine_ws.bind fun _ => inLine_logOption _)).bind fun _ => inLine_pure _
  · exact (inLine_tok _ (by decide)).bind fun _ => inLine_ws.bind fun _ => (inLine_refer he.timeRanges).bind fun _ => inLine_pure _
  · exact (inLine_tok _ (by decide)).bind fun _ => inLine_pure _
  · exact inLine_pure _

theorem inLine_aclOptions (he : e.Clean) : InLine (aclOptions e) :=
  (InLine.many ((inLine_aclOption he).bind fun _ => (InLine.opt inLine_ws).bind fun _ => inLine_pure _)).bind fun _ => inLine_pure _

end inline

/-! ## the specification -/

/-- The text of one line: no line feed but the one at its end. -/
def OneLine (t : List Char) : Prop := ∃ u, t = u ++ ['\n'] ∧ '\n' ∉ u

/-- The text is a line that begins with these words and goes on behind a blank. -/
def LineBeginning (ws : List String) (t : List Char) : Prop :=
  OneLine t ∧ ∃ h b u, Spaced ws h ∧ (b = ' ' ∨ b = '\t') ∧ t = h ++ (b :: u)

theorem oneLine_nl {u n : List Char} (hu : '\n' ∉ u) (hn : n = ['\n'] ∨ n = ['\r', '\n']) : OneLine (u ++ n) := by
  rcases hn with rfl | rfl
  · exact ⟨u, rfl, hu⟩
  · exact ⟨u ++ ['\r'], by simp, by simp [hu]⟩

/-! ## the lines -/

theorem lineEnd_reads {e : Env} (he : e.Clean) : Reads (lineEnd e) (fun c _ => OneLine c) := by
  intro t d r h
  unfold lineEnd at h
  obtain ⟨o, s1, h1, hz⟩ := bind_inv h; clear h; have h := hz; clear hz
  obtain ⟨w, s2, h2, hz⟩ := bind_inv h; clear h; have h := hz; clear hz
  obtain ⟨x, s3, h3, hz⟩ := bind_inv h; clear h; have h := hz; clear hz
  cases h
  obtain ⟨c1, rfl, n1⟩ := InLine.opt (inLine_ws.bind fun _ => inLine_aclOptions he) _ _ _ h1
  obtain ⟨c2, rfl, n2⟩ := InLine.opt inLine_ws _ _ _ h2
  obtain ⟨c3, rfl, n3⟩ := reads_nl _ _ _ h3
  refine ⟨c1 ++ c2 ++ c3, by simp, ?_⟩
  exact oneLine_nl (by simp [n1, n2]) n3

/-- The beginning of a line, up to the blanks behind the name of the list. -/
theorem head_reads {g : Guard} : Reads (head g) (fun c i => IdWord i ∧ ∃ h b, Spaced ["access-list", i] h ∧
    b ≠ [] ∧ Blanks b ∧ c = h ++ b) := by
  intro t i r h
  unfold head at h
  obtain ⟨a, s1, h1, hz⟩ := bind_inv h; clear h; have h := hz; clear hz
  obtain ⟨w, s2, h2, hz⟩ := bind_inv h; clear h; have h := hz; clear hz
  obtain ⟨x, s3, h3, hz⟩ := bind_inv h; clear h; have h := hz; clear hz
  obtain ⟨w2, s4, h4, hz⟩ := bind_inv h; clear h; have h := hz; clear hz
  cases h
  obtain ⟨c1, rfl, -, rfl⟩ := reads_tok _ _ _ _ _ h1
  have hmax := ws_max h2
  obtain ⟨c2, rfl, b2, b2'⟩ := reads_ws _ _ _ h2
  obtain ⟨c3, rfl, rfl, n3⟩ := reads_objName _ _ _ h3
  obtain ⟨c4, rfl, b4, b4'⟩ := reads_ws _ _ _ h4
  refine ⟨"access-list".toList ++ (c2 ++ x) ++ c4, by simp, ⟨?_, ?_⟩, _, c4, .cons _ c2 _ _ b2 b2' (.one _), b4, b4', by simp⟩
  · intro e
    simp at e
    subst e
    cases c4 with
    | nil => exact b4 rfl
    | cons y c4 =>
      have h5 := b4' y (by simp)
      have h6 := hmax y (by simp)
      rcases h5 with h5 | h5
      · exact h6.1 h5
      · exact h6.2 h5
  · intro c hc
    rw [String.toList_ofList] at hc
    have := n3 c hc
    simp only [isNameChar, Bool.or_eq_true, beq_iff_eq] at this
    simp only [List.mem_cons, List.not_mem_nil, or_false]
    rcases this with (((h | h) | h) | h) | h <;> simp [h]

theorem spaced_snoc {ws : List String} {t : List Char} (h : Spaced ws t) (w : String) {b : List Char} (hb : b ≠ [])
    (hb' : Blanks b) : Spaced (ws ++ [w]) (t ++ (b ++ w.toList)) := by
  induction h with
  | one v => exact .cons v b [w] _ hb hb' (.one w)
  | cons v b2 ws t h1 h2 _ ih =>
    have := Spaced.cons v b2 _ _ h1 h2 ih
    simpa using this

/-- The beginning of a rule line, up to the blanks behind the action. -/
theorem start_inv {g : Guard} {β : Type} {k : P String} {kind : String → Prop} (hk : Reads k (fun c a => kind a ∧ c = a.toList))
    {f : String → String → String → P β} {t r : Text} {x : β}
    (h : (do let i ← head g; let k ← k; ws; let m ← mode g; ws; f i k m : P β) t = .ok x r) :
    ∃ i j m hd b s, IdWord i ∧ kind j ∧ m ∈ ["permit", "deny"] ∧ Spaced ["access-list", i, j, m] hd ∧ b ≠ [] ∧ Blanks b ∧
      t = hd ++ (b ++ s) ∧ f i j m s = .ok x r := by
  obtain ⟨i, s1, h1, hz⟩ := bind_inv h; clear h; have h := hz; clear hz
  obtain ⟨j, s2, h2, hz⟩ := bind_inv h; clear h; have h := hz; clear hz
  obtain ⟨w, s3, h3, hz⟩ := bind_inv h; clear h; have h := hz; clear hz
  obtain ⟨m, s4, h4, hz⟩ := bind_inv h; clear h; have h := hz; clear hz
  obtain ⟨w2, s5, h5, hz⟩ := bind_inv h; clear h; have h := hz; clear hz
  obtain ⟨c1, rfl, hi, hd, b, hs, hb, hb', rfl⟩ := head_reads _ _ _ h1
  obtain ⟨c2, rfl, hj, rfl⟩ := hk _ _ _ h2
  obtain ⟨c3, rfl, b3, b3'⟩ := reads_ws _ _ _ h3
  obtain ⟨c4, rfl, hm, rfl⟩ := reads_oneOf _ _ _ _ _ h4
  obtain ⟨c5, rfl, b5, b5'⟩ := reads_ws _ _ _ h5
  have l1 := spaced_snoc hs j hb hb'
  have l2 := spaced_snoc l1 m b3 b3'
  exact ⟨i, j, m, _, c5, s5, hi, hj, hm, l2, b5, b5', by simp, h⟩

theorem spaced_noNl {ws : List String} {t : List Char} (h : Spaced ws t) (hw : ∀ w ∈ ws, '\n' ∉ w.toList) : '\n' ∉ t := by
  induction h with
  | one w => exact hw w (by simp)
  | cons w b ws t _ hb _ ih =>
    simp only [List.mem_append, not_or]
    refine ⟨hw w (by simp), fun hm => ?_, ih (fun v hv => hw v (by simp [hv]))⟩
    rcases hb _ hm with h | h <;> exact absurd h (by decide)

theorem blanks_noNl {b : List Char} (hb : Blanks b) : '\n' ∉ b := by
  intro hm
  rcases hb _ hm with h | h <;> exact absurd h (by decide)

theorem idWord_noNl {i : String} (h : IdWord i) : '\n' ∉ i.toList := fun hm => by
  rcases h.2 _ hm with h | h
  · exact absurd h (by decide)
  · simp at h

/-- A line that begins with the words of a rule. -/
theorem lineBeginning_of {i k m : String} (hi : IdWord i) (hk : '\n' ∉ k.toList) (hm : m ∈ ["permit", "deny"]) {hd b s : List Char}
    (hs : Spaced ["access-list", i, k, m] hd) (hb : b ≠ []) (hb' : Blanks b) (hl : OneLine s) :
    LineBeginning ["access-list", i, k, m] (hd ++ (b ++ s)) := by
  obtain ⟨u, rfl, hu⟩ := hl
  refine ⟨⟨hd ++ (b ++ u), by simp, ?_⟩, ?_⟩
  · have h1 : '\n' ∉ hd := spaced_noNl hs (by
      intro w hw
      simp only [List.mem_cons, List.not_mem_nil, or_false] at hw
      rcases hw with rfl | rfl | rfl | rfl
      · decide
      · exact idWord_noNl hi
      · exact hk
      · simp only [List.mem_cons, List.not_mem_nil, or_false] at hm
        rcases hm with rfl | rfl <;> decide)
    have := blanks_noNl hb'
    simp [h1, this, hu]
  · cases b with
    | nil => exact absurd rfl hb
    | cons x b => exact ⟨hd, x, b ++ (u ++ ['\n']), hs, hb' x (by simp), by simp⟩

/-- What an accepted rule line looks like. -/
def RuleLine (c : List Char) (r : PRule) : Prop :=
  IdWord r.id ∧ LineBeginning ["access-list", r.id, r.extended, r.mode] c ∧ r.mode ∈ ["permit", "deny"] ∧ r.remark = []

/-- The kinds of rules contain no line feed. -/
theorem kind_noNl {k : String} (h : k ∈ ["extended", "standard", "webtype"]) : '\n' ∉ k.toList := by
  simp only [List.mem_cons, List.not_mem_nil, or_false] at h
  rcases h with rfl | rfl | rfl <;> decide

theorem extended_reads {e : Env} (he : e.Clean) : Reads (ruleExtended e) (fun c r => RuleLine c r ∧ r.extended = "extended") := by
  unfold ruleExtended
  apply Reads.alt
  · intro t x r h
    obtain ⟨i, k, m, hd, b, s, hi, rfl, hm, hs, hb, hb', rfl, hz⟩ := start_inv (kind := (· = "extended")) (k := tok e.guard "extended")
      ((reads_tok _ _).mono (by rintro c a ⟨rfl, rfl⟩; simp)) h
    clear h; have h := hz; clear hz
    obtain ⟨p, s1, h1, hz⟩ := bind_inv h; clear h; have h := hz; clear hz
    obtain ⟨_, s2, h2, hz⟩ := bind_inv h; clear h; have h := hz; clear hz
    obtain ⟨sr, s3, h3, hz⟩ := bind_inv h; clear h; have h := hz; clear hz
    obtain ⟨_, s4, h4, hz⟩ := bind_inv h; clear h; have h := hz; clear hz
    obtain ⟨d, s5, h5, hz⟩ := bind_inv h; clear h; have h := hz; clear hz
    obtain ⟨ic, s6, h6, hz⟩ := bind_inv h; clear h; have h := hz; clear hz
    obtain ⟨o, s7, h7, hz⟩ := bind_inv h; clear h; have h := hz; clear hz
    cases h
    obtain ⟨c1, rfl, n1⟩ := inLine_oneOf e.guard (by decide) _ _ _ h1
    obtain ⟨c2, rfl, n2⟩ := inLine_ws _ _ _ h2
    obtain ⟨c3, rfl, n3⟩ := inLine_aclHost he _ _ _ h3
    obtain ⟨c4, rfl, n4⟩ := inLine_ws _ _ _ h4
    obtain ⟨c5, rfl, n5⟩ := inLine_aclHost he _ _ _ h5
    obtain ⟨c6, rfl, n6⟩ := inLine_icmpOptions he _ _ _ h6
    obtain ⟨c7, rfl, u, rfl, n7⟩ := lineEnd_reads he _ _ _ h7
    refine ⟨hd ++ (b ++ (c1 ++ (c2 ++ (c3 ++ (c4 ++ (c5 ++ (c6 ++ (u ++ ['\n']))))))))
      , by simp, ⟨hi, lineBeginning_of hi (kind_noNl (by simp)) hm hs hb hb' ⟨c1 ++ (c2 ++ (c3 ++ (c4 ++ (c5 ++ (c6 ++ u))))), by simp, by simp [*]⟩,
        hm, rfl⟩, rfl⟩
  · intro t x r h
    obtain ⟨i, k, m, hd, b, s, hi, rfl, hm, hs, hb, hb', rfl, hz⟩ := start_inv (kind := (· = "extended")) (k := tok e.guard "extended")
      ((reads_tok _ _).mono (by rintro c a ⟨rfl, rfl⟩; simp)) h
    clear h; have h := hz; clear hz
    obtain ⟨p, s1, h1, hz⟩ := bind_inv h; clear h; have h := hz; clear hz
    obtain ⟨_, s2, h2, hz⟩ := bind_inv h; clear h; have h := hz; clear hz
    obtain ⟨sr, s3, h3, hz⟩ := bind_inv h; clear h; have h := hz; clear hz
    obtain ⟨_, s4, h4, hz⟩ := bind_inv h; clear h; have h := hz; clear hz
    obtain ⟨d, s5, h5, hz⟩ := bind_inv h; clear h; have h := hz; clear hz
    obtain ⟨o, s7, h7, hz⟩ := bind_inv h; clear h; have h := hz; clear hz
    cases h
    obtain ⟨c1, rfl, n1⟩ := inLine_aclProtocol he _ _ _ h1
    obtain ⟨c2, rfl, n2⟩ := inLine_ws _ _ _ h2
    obtain ⟨c3, rfl, n3⟩ := inLine_node he _ _ _ h3
    obtain ⟨c4, rfl, n4⟩ := inLine_ws _ _ _ h4
    obtain ⟨c5, rfl, n5⟩ := inLine_node he _ _ _ h5
    obtain ⟨c7, rfl, u, rfl, n7⟩ := lineEnd_reads he _ _ _ h7
    refine ⟨hd ++ (b ++ (c1 ++ (c2 ++ (c3 ++ (c4 ++ (c5 ++ (u ++ ['\n'])))))))
      , by simp, ⟨hi, lineBeginning_of hi (kind_noNl (by simp)) hm hs hb hb' ⟨c1 ++ (c2 ++ (c3 ++ (c4 ++ (c5 ++ u)))), by simp, by simp [*]⟩,
        hm, rfl⟩, rfl⟩

theorem standard_reads {e : Env} (he : e.Clean) : Reads (ruleStandard e) (fun c r => RuleLine c r ∧ r.extended = "standard") := by
  intro t x r h
  unfold ruleStandard at h
  obtain ⟨i, k, m, hd, b, s, hi, rfl, hm, hs, hb, hb', rfl, hz⟩ := start_inv (kind := (· = "standard")) (k := tok e.guard "standard")
    ((reads_tok _ _).mono (by rintro c a ⟨rfl, rfl⟩; simp)) h
  clear h; have h := hz; clear hz
  obtain ⟨p, s1, h1, hz⟩ := bind_inv h; clear h; have h := hz; clear hz
  obtain ⟨_, s2, h2, hz⟩ := bind_inv h; clear h; have h := hz; clear hz
  obtain ⟨_, s3, h3, hz⟩ := bind_inv h; clear h; have h := hz; clear hz
  cases h
  obtain ⟨c1, rfl, n1⟩ := inLine_aclHost he _ _ _ h1
  obtain ⟨c2, rfl, n2⟩ := InLine.opt inLine_ws _ _ _ h2
  obtain ⟨c3, rfl, n3⟩ := reads_nl _ _ _ h3
  refine ⟨hd ++ (b ++ (c1 ++ c2 ++ c3)), by simp, ⟨hi, lineBeginning_of hi (kind_noNl (by simp)) hm hs hb hb' (oneLine_nl (by simp [*]) n3), hm, rfl⟩, rfl⟩

theorem webtype_reads {e : Env} (he : e.Clean) : Reads (ruleWebtype e) (fun c r => RuleLine c r ∧ r.extended = "webtype") := by
  unfold ruleWebtype
  apply Reads.alt
  · intro t x r h
    obtain ⟨i, k, m, hd, b, s, hi, rfl, hm, hs, hb, hb', rfl, hz⟩ := start_inv (kind := (· = "webtype")) (k := tok e.guard "webtype")
      ((reads_tok _ _).mono (by rintro c a ⟨rfl, rfl⟩; simp)) h
    clear h; have h := hz; clear hz
    obtain ⟨p, s1, h1, hz⟩ := bind_inv h; clear h; have h := hz; clear hz
    obtain ⟨_, s2, h2, hz⟩ := bind_inv h; clear h; have h := hz; clear hz
    obtain ⟨u, s3, h3, hz⟩ := bind_inv h; clear h; have h := hz; clear hz
    obtain ⟨o, s4, h4, hz⟩ := bind_inv h; clear h; have h := hz; clear hz
    cases h
    obtain ⟨c1, rfl, n1⟩ := inLine_tok e.guard (by decide) _ _ _ h1
    obtain ⟨c2, rfl, n2⟩ := inLine_ws _ _ _ h2
    obtain ⟨c3, rfl, n3⟩ := (Reads.alt inLine_stringP ((inLine_tok e.guard (by decide)).bind fun _ => inLine_pure _ : InLine _)) _ _ _ h3
    obtain ⟨c7, rfl, v, rfl, n7⟩ := lineEnd_reads he _ _ _ h4
    refine ⟨hd ++ (b ++ (c1 ++ (c2 ++ (c3 ++ (v ++ ['\n'])))))
      , by simp, ⟨hi, lineBeginning_of hi (kind_noNl (by simp)) hm hs hb hb' ⟨c1 ++ (c2 ++ (c3 ++ v)), by simp, by simp [*]⟩, hm, rfl⟩, rfl⟩
  · intro t x r h
    obtain ⟨i, k, m, hd, b, s, hi, rfl, hm, hs, hb, hb', rfl, hz⟩ := start_inv (kind := (· = "webtype")) (k := tok e.guard "webtype")
      ((reads_tok _ _).mono (by rintro c a ⟨rfl, rfl⟩; simp)) h
    clear h; have h := hz; clear hz
    obtain ⟨p, s1, h1, hz⟩ := bind_inv h; clear h; have h := hz; clear hz
    obtain ⟨_, s2, h2, hz⟩ := bind_inv h; clear h; have h := hz; clear hz
    obtain ⟨u, s3, h3, hz⟩ := bind_inv h; clear h; have h := hz; clear hz
    obtain ⟨o, s4, h4, hz⟩ := bind_inv h; clear h; have h := hz; clear hz
    cases h
    obtain ⟨c1, rfl, n1⟩ := inLine_tok e.guard (by decide) _ _ _ h1
    obtain ⟨c2, rfl, n2⟩ := inLine_ws _ _ _ h2
    obtain ⟨c3, rfl, n3⟩ := inLine_node he _ _ _ h3
    obtain ⟨c7, rfl, v, rfl, n7⟩ := lineEnd_reads he _ _ _ h4
    refine ⟨hd ++ (b ++ (c1 ++ (c2 ++ (c3 ++ (v ++ ['\n'])))))
      , by simp, ⟨hi, lineBeginning_of hi (kind_noNl (by simp)) hm hs hb hb' ⟨c1 ++ (c2 ++ (c3 ++ v)), by simp, by simp [*]⟩, hm, rfl⟩, rfl⟩

theorem ethertype_reads {e : Env} : Reads (ruleEthertype e) (fun c _ => OneLine c ∧ ∃ i h u, IdWord i ∧ Spaced ["access-list", i, "ethertype"] h ∧
    c = h ++ u) := by
  intro t x r h
  unfold ruleEthertype at h
  obtain ⟨i, s1, h1, hz⟩ := bind_inv h; clear h; have h := hz; clear hz
  obtain ⟨k, s2, h2, hz⟩ := bind_inv h; clear h; have h := hz; clear hz
  obtain ⟨l, s3, h3, h4⟩ := bind_inv h
  obtain ⟨c1, rfl, hi, hd, b, hs, hb, hb', rfl⟩ := head_reads _ _ _ h1
  obtain ⟨c2, rfl, rfl, rfl⟩ := reads_tok _ _ _ _ _ h2
  obtain ⟨c3, rfl, -, n3⟩ := reads_toeol _ _ _ h3
  obtain ⟨c4, rfl, n4⟩ := reads_nl _ _ _ h4
  have l1 := spaced_snoc hs "ethertype" hb hb'
  refine ⟨hd ++ (b ++ "ethertype".toList) ++ c3 ++ c4, by simp, oneLine_nl ?_ n4, i, _, c3 ++ c4, hi, l1, by simp⟩
  have := spaced_noNl l1 (by
    intro w hw
    simp only [List.mem_cons, List.nil_append, List.cons_append, List.not_mem_nil, or_false] at hw
    rcases hw with rfl | rfl | rfl
    · decide
    · exact idWord_noNl hi
    · decide)
  simp only [List.mem_append, not_or] at this ⊢
  exact ⟨this, n3⟩

/-- Remark lines read one after the other. -/
theorem remarks_reads {e : Env} : Reads (many1 (remarkLine e)) (fun c rs => RemarkLines c rs ∧ rs ≠ []) := by
  have one : Reads (remarkLine e) (fun c r => ∃ i h, IdWord i ∧ Spaced ["access-list", i, "remark"] h ∧ '\n' ∉ r ∧
      c = h ++ (' ' :: (r ++ ['\n']))) := by
    intro t x r h
    unfold remarkLine at h
    obtain ⟨i, s1, h1, hz⟩ := bind_inv h; clear h; have h := hz; clear hz
    obtain ⟨k, s2, h2, hz⟩ := bind_inv h; clear h; have h := hz; clear hz
    obtain ⟨_, s3, h3, hz⟩ := bind_inv h; clear h; have h := hz; clear hz
    obtain ⟨l, s4, h4, hz⟩ := bind_inv h; clear h; have h := hz; clear hz
    obtain ⟨_, s5, h5, hz⟩ := bind_inv h; clear h; have h := hz; clear hz
    cases h
    obtain ⟨c1, rfl, hi, hd, b, hs, hb, hb', rfl⟩ := head_reads _ _ _ h1
    obtain ⟨c2, rfl, rfl, rfl⟩ := reads_tok _ _ _ _ _ h2
    obtain ⟨c3, rfl, rfl⟩ := reads_sp _ _ _ h3
    have hmax := pat_star_max h4
    obtain ⟨c4, rfl, rfl, n4⟩ := reads_toeol _ _ _ h4
    obtain ⟨c5, rfl, n5⟩ := reads_nl _ _ _ h5
    have hc5 : c5 = ['\n'] := by
      rcases n5 with rfl | rfl
      · rfl
      · exact absurd (hmax '\r' (by simp)) (by decide)
    subst hc5
    have l1 := spaced_snoc hs "remark" hb hb'
    exact ⟨hd ++ (b ++ "remark".toList) ++ (' ' :: (x ++ ['\n'])), by simp, i, _, hi, l1, n4, rfl⟩
  refine (reads_many1 one).mono ?_
  rintro c rs ⟨hne, hr⟩
  refine ⟨?_, hne⟩
  clear hne
  induction hr with
  | nil => exact .nil
  | cons c d a l hq _ ih =>
    obtain ⟨i, h, hi, hs, hn, rfl⟩ := hq
    have := RemarkLines.cons i h a d l hi hs hn ih
    simpa using this

/-- **C69.** Every rule the parser returns for an access-list command comes from exactly one line,
behind the remark lines whose texts it carries: that line begins with `access-list`, the name of the
list, the kind and the action the rule has, and no other line of the text is consumed. -/
theorem C69_one_rule_one_line (e : Env) (he : e.Clean) (t rest : List Char) (r : PRule)
    (h : accessList e t = .ok (some r) rest) :
    ∃ remarks line, t = remarks ++ (line ++ rest) ∧ RemarkLines remarks r.remark ∧
      LineBeginning ["access-list", r.id, r.extended, r.mode] line ∧ IdWord r.id ∧
      r.extended ∈ ["extended", "standard", "webtype"] ∧ r.mode ∈ ["permit", "deny"] := by
  have plain : ∀ (k : String) (p : P PRule), k ∈ ["extended", "standard", "webtype"] →
      Reads p (fun c r => RuleLine c r ∧ r.extended = k) →
      (do let r ← p; pure (some r) : P (Option PRule)) t = .ok (some r) rest →
      ∃ remarks line, t = remarks ++ (line ++ rest) ∧ RemarkLines remarks r.remark ∧
        LineBeginning ["access-list", r.id, r.extended, r.mode] line ∧ IdWord r.id ∧
        r.extended ∈ ["extended", "standard", "webtype"] ∧ r.mode ∈ ["permit", "deny"] := by
    intro k p hk hp h
    obtain ⟨x, s, h1, h2⟩ := bind_inv h
    cases h2
    obtain ⟨c, rfl, ⟨h0, h3, h4, h5⟩, h6⟩ := hp _ _ _ h1
    exact ⟨[], c, rfl, by rw [h5]; exact .nil, h3, h0, by rw [h6]; exact hk, h4⟩
  have rem : ∀ (k : String) (p : P PRule), k ∈ ["extended", "standard", "webtype"] →
      Reads p (fun c r => RuleLine c r ∧ r.extended = k) →
      remarked e (do let r ← p; pure (some r) : P (Option PRule)) t = .ok (some r) rest →
      ∃ remarks line, t = remarks ++ (line ++ rest) ∧ RemarkLines remarks r.remark ∧
        LineBeginning ["access-list", r.id, r.extended, r.mode] line ∧ IdWord r.id ∧
        r.extended ∈ ["extended", "standard", "webtype"] ∧ r.mode ∈ ["permit", "deny"] := by
    intro k p hk hp h
    unfold remarked at h
    obtain ⟨rs, s, h1, hz⟩ := bind_inv h; clear h; have h := hz; clear hz
    obtain ⟨x, s2, h2, hz⟩ := bind_inv h; clear h; have h := hz; clear hz
    obtain ⟨y, s3, h3, h4⟩ := bind_inv h2
    cases h4
    cases h
    obtain ⟨c1, rfl, h5, -⟩ := remarks_reads _ _ _ h1
    obtain ⟨c, rfl, ⟨h0, h6, h7, h8⟩, h9⟩ := hp _ _ _ h3
    exact ⟨c1, c, rfl, h5, h6, h0, by rw [h9]; exact hk, h7⟩
  have none1 : (do ruleEthertype e; pure none : P (Option PRule)) t ≠ .ok (some r) rest := by
    intro h
    obtain ⟨x, s, h1, h2⟩ := bind_inv h
    cases h2
  have none2 : remarked e (do ruleEthertype e; pure none : P (Option PRule)) t ≠ .ok (some r) rest := by
    intro h
    unfold remarked at h
    obtain ⟨rs, s, h1, hz⟩ := bind_inv h; clear h; have h := hz; clear hz
    obtain ⟨x, s2, h2, hz⟩ := bind_inv h; clear h; have h := hz; clear hz
    obtain ⟨y, s3, h3, h4⟩ := bind_inv h2
    cases h4
    cases h
  unfold accessList at h
  rcases alt_inv h with h | h
  · exact rem "extended" _ (by decide) (extended_reads he) h
  rcases alt_inv h with h | h
  · exact plain "extended" _ (by decide) (extended_reads he) h
  rcases alt_inv h with h | h
  · exact rem "standard" _ (by decide) (standard_reads he) h
  rcases alt_inv h with h | h
  · exact plain "standard" _ (by decide) (standard_reads he) h
  rcases alt_inv h with h | h
  · exact rem "webtype" _ (by decide) (webtype_reads he) h
  rcases alt_inv h with h | h
  · exact plain "webtype" _ (by decide) (webtype_reads he) h
  rcases alt_inv h with h | h
  · exact absurd h none2
  rcases alt_inv h with h | h
  · exact absurd h none1
  cases h

/-- **C69 (nothing else is dropped).** An access-list command that gives no rule is an `ethertype` line,
behind remark lines: a permit or deny line of another kind is never read without a rule. -/
theorem C69_dropped_is_ethertype (e : Env) (t rest : List Char) (h : accessList e t = .ok none rest) :
    ∃ remarks rs line i hd u, t = remarks ++ (line ++ rest) ∧ RemarkLines remarks rs ∧ OneLine line ∧ IdWord i ∧
      Spaced ["access-list", i, "ethertype"] hd ∧ line = hd ++ u := by
  have plain : ∀ (p : P PRule), (do let r ← p; pure (some r) : P (Option PRule)) t ≠ .ok none rest := by
    intro p h
    obtain ⟨x, s, h1, h2⟩ := bind_inv h
    cases h2
  have rem : ∀ (p : P PRule), remarked e (do let r ← p; pure (some r) : P (Option PRule)) t ≠ .ok none rest := by
    intro p h
    unfold remarked at h
    obtain ⟨rs, s, h1, hz⟩ := bind_inv h; clear h; have h := hz; clear hz
    obtain ⟨x, s2, h2, hz⟩ := bind_inv h; clear h; have h := hz; clear hz
    obtain ⟨y, s3, h3, h4⟩ := bind_inv h2
    cases h4
    cases h
  unfold accessList at h
  rcases alt_inv h with h | h
  · exact absurd h (rem _)
  rcases alt_inv h with h | h
  · exact absurd h (plain _)
  rcases alt_inv h with h | h
  · exact absurd h (rem _)
  rcases alt_inv h with h | h
  · exact absurd h (plain _)
  rcases alt_inv h with h | h
  · exact absurd h (rem _)
  rcases alt_inv h with h | h
  · exact absurd h (plain _)
  rcases alt_inv h with h | h
  · unfold remarked at h
    obtain ⟨rs, s, h1, hz⟩ := bind_inv h; clear h; have h := hz; clear hz
    obtain ⟨x, s2, h2, hz⟩ := bind_inv h; clear h; have h := hz; clear hz
    obtain ⟨y, s3, h3, h4⟩ := bind_inv h2
    cases h4
    cases h
    obtain ⟨c1, rfl, h5, -⟩ := remarks_reads _ _ _ h1
    obtain ⟨c, rfl, h6, i, hd, u, h0, h7, h8⟩ := ethertype_reads _ _ _ h3
    exact ⟨c1, rs, c, i, hd, u, rfl, h5, h6, h0, h7, h8⟩
  rcases alt_inv h with h | h
  · obtain ⟨x, s, h1, h2⟩ := bind_inv h
    cases h2
    obtain ⟨c, rfl, h6, i, hd, u, h0, h7, h8⟩ := ethertype_reads _ _ _ h1
    exact ⟨[], [], c, i, hd, u, rfl, .nil, h6, h0, h7, h8⟩
  cases h

end Acltk.AclText
