import Verif.Lemmas.IosLineCmd
/-!
# What the access-list commands of IOS read
-/
namespace Acltk.IosLines
open Acltk Acltk.Lookup Acltk.Peg Acltk.AclText Acltk.IosText
open Acltk.FwsmText (St Em)

variable {α β : Type} {g : Guard} {s : St}

/-- The end of a line. -/
def Eol (e : List Char) : Prop := e = ['\n'] ∨ e = ['\r', '\n']

/-- A whole line. -/
theorem Moves.whole {cur cur' : Option String} {pre u e : List Char} {o : List (String × String)} (hu : '\n' ∉ u) (he : Eol e)
    (hx : ∃ x s, pre ++ u = x :: s ∧ x ≠ 'b') (h : ∀ v, v = [] ∨ v = ['\r'] → step cur (pre ++ (u ++ v)) = (cur', o)) : Moves cur pre (u ++ e) cur' [] o := by
  obtain ⟨x, s, hx, hb⟩ := hx
  rcases he with rfl | rfl
  · have h1 : step cur (pre ++ u) = (cur', o) := by simpa using h [] (Or.inl rfl)
    have := Moves.nl cur (pre ++ u) [] cur' [] [] (by rw [hx]; exact opens_head hb) (by rw [h1]; exact .nil _ _)
    rw [h1] at this
    simpa using (Moves.line (cur := cur) (p := pre) hu).append this
  · have h1 : step cur (pre ++ (u ++ ['\r'])) = (cur', o) := h ['\r'] (Or.inr rfl)
    have := Moves.nl cur (pre ++ (u ++ ['\r'])) [] cur' [] []
      (by rw [← List.append_assoc, hx]; exact opens_head hb) (by rw [h1]; exact .nil _ _)
    rw [h1] at this
    have h2 := (Moves.line (cur := cur) (p := pre) (c := u ++ ['\r']) (by simp [hu])).append this
    simpa using h2

/-- The rest of a line is read, and the value satisfies `V`. -/
def LR (V : α → Prop) (p : P α) : Prop := Reads p (fun c a => V a ∧ ∃ u e, c = u ++ e ∧ '\n' ∉ u ∧ Eol e)

theorem LR.bind {V : β → Prop} {p : P α} {f : α → P β} (h : InLine p) (hf : ∀ a, LR V (f a)) : LR V (p >>= f) :=
  (Reads.bind h hf).mono (by
    rintro c b ⟨c1, c2, a, rfl, h1, hv, u, e, rfl, h2, h3⟩
    exact ⟨hv, c1 ++ u, e, by simp, by simp [h1, h2], h3⟩)

theorem LR.nlPure {V : α → Prop} {a : α} (h : V a) : LR V (do Peg.nl; pure a) := by
  refine (Reads.bind reads_nl fun _ => reads_pure a).mono ?_
  rintro c b ⟨c1, c2, x, rfl, h1, rfl, rfl⟩
  exact ⟨h, [], c1, by simp, by simp, h1⟩

macro "restof" : tactic => `(tactic| repeat' first
  | (refine LR.nlPure ?_; exact rfl)
  | (refine LR.nlPure ?_; exact ⟨rfl, rfl⟩)
  | (with_reducible refine LR.bind (by staysin; done) ?_)
  | (refine LR.bind (by staysin; done) ?_)
  | intro _)

/-! ## in one line -/

theorem inl_iosHost {e : Env} (he : e.Clean) : InLine (iosHost e) := by
  have h := he.netGroups
  unfold iosHost
  staysin

theorem inl_optPort {e : Env} (he : e.Clean) : InLine (optPort e) := by
  have h := inLine_aclPort he
  unfold optPort
  staysin

theorem inl_iosNode {e : Env} (he : e.Clean) : InLine (iosNode e) := by
  have h := inl_iosHost he
  have h2 := inl_optPort he
  unfold iosNode
  staysin

theorem inl_ios6Host : InLine (ios6Host g) := by
  unfold ios6Host
  staysin

theorem inl_ios6Node {e : Env} (he : e.Clean) : InLine (ios6Node e) := by
  have h := inl_ios6Host (g := e.guard)
  have h2 := inl_optPort he
  unfold ios6Node
  staysin

theorem inl_optArg (a : Arg) : InLine (optArg a) := by
  cases a <;> (unfold optArg; staysin)

theorem inl_optionOf {l : List (String × Arg)} (h : ∀ ka ∈ l, '\n' ∉ ka.1.toList) : InLine (optionOf g l) := by
  unfold optionOf
  apply inLine_alts
  intro p hp
  obtain ⟨ka, hk, rfl⟩ := List.mem_map.1 hp
  have h1 := inLine_tok g (h ka hk)
  have h2 := inl_optArg ka.2
  staysin

theorem inl_optionsOf {l : List (String × Arg)} (h : ∀ ka ∈ l, '\n' ∉ ka.1.toList) : InLine (optionsOf g l) := by
  have := inl_optionOf (g := g) h
  unfold optionsOf
  staysin

/-! ## words -/

theorem mode_mem {m : String} (h : m ∈ ["permit", "deny"]) :
    isMode m = true ∧ m.toList ≠ [] ∧ (∀ c ∈ m.toList, isBlank c = false) ∧ '\n' ∉ m.toList := by
  simp only [List.mem_cons, List.not_mem_nil, or_false] at h
  rcases h with rfl | rfl <;> decide

theorem digit_notBlank {c : Char} (h : c.isDigit = true) : isBlank c = false := by
  cases hb : isBlank c with
  | false => rfl
  | true =>
    simp only [isBlank, Bool.or_eq_true, beq_iff_eq] at hb
    rcases hb with rfl | rfl <;> exact absurd h (by decide)

theorem digit_notNl {n : List Char} (h : ∀ c ∈ n, c.isDigit = true) : '\n' ∉ n := fun hm => absurd (h _ hm) (by decide)

theorem blanks_notNl {b : List Char} (h : ∀ c ∈ b, isBlank c = true) : '\n' ∉ b := fun hm => absurd (h _ hm) (by decide)

theorem digits_notMode {n : String} (hn : ∀ c ∈ n.toList, c.isDigit = true) : isMode n = false := by
  cases h : isMode n with
  | false => rfl
  | true =>
    simp only [isMode, Bool.or_eq_true, beq_iff_eq] at h
    rcases h with rfl | rfl
    · exact absurd (hn 'p' (by decide)) (by decide)
    · exact absurd (hn 'd' (by decide)) (by decide)

theorem action_mode {m : String} (h : isMode m = true) (ws : List String) : action (m :: ws) = some m := by
  cases ws with
  | nil => simp [action, h]
  | cons a ws => cases ws <;> simp [action, h]

theorem action_num {n m : String} (hn : ∀ c ∈ n.toList, c.isDigit = true) (h : isMode m = true) (ws : List String) :
    action (n :: m :: ws) = some m := by
  have h1 := digits_notMode hn
  have h2 : n.toList.all Char.isDigit = true := by simpa [List.all_eq_true] using hn
  cases ws <;> simp [action, h, h1, h2]

theorem action_seq {n m : String} (h : isMode m = true) (ws : List String) : action ("sequence" :: n :: m :: ws) = some m := by
  have h1 : isMode "sequence" = false := by decide
  have h2 : ("sequence".toList.all Char.isDigit) = false := by decide
  simp only [action, h1, h2, h, Bool.false_and, Bool.false_eq_true, if_false, beq_self_eq_true, Bool.and_self, if_true]

theorem action_remark (ws : List String) : action ("remark" :: ws) = none := by
  have h1 : isMode "remark" = false := by decide
  have h2 : ("remark".toList.all Char.isDigit) = false := by decide
  have h3 : ("remark" == "sequence") = false := by decide
  cases ws with
  | nil => simp only [action, h1, Bool.false_eq_true, if_false]
  | cons a ws =>
    cases ws <;> simp only [action, h1, h2, h3, Bool.false_and, Bool.false_eq_true, if_false]

theorem action_numRemark {n : String} (hn : ∀ c ∈ n.toList, c.isDigit = true) (ws : List String) :
    action (n :: "remark" :: ws) = none := by
  have h1 := digits_notMode hn
  have h0 : isMode "remark" = false := by decide
  have h3 : (n == "sequence") = false := by
    cases h : (n == "sequence") with
    | false => rfl
    | true =>
      rw [beq_iff_eq] at h
      subst h
      exact absurd (hn 's' (by decide)) (by decide)
  cases ws <;> simp only [action, h0, h1, h3, Bool.and_false, Bool.false_and, Bool.false_eq_true, if_false]

/-! ## named lists -/

theorem reads_blanks : Reads ws (fun c _ => c ≠ [] ∧ ∀ x ∈ c, isBlank x = true) := reads_ws.mono (by
  rintro c a ⟨h1, h2⟩
  refine ⟨h1, fun x hx => ?_⟩
  rcases h2 x hx with rfl | rfl <;> decide)

theorem pat_plus_ne {q : Char → Bool} {t r : Text} {a : List Char} (h : pat (.plus q) t = .ok a r) : a ≠ [] := by
  rintro rfl
  have e : (Re.plus q).Within (fun c => q c = true) := by
    simp only [Re.plus, Re.Within]; exact ⟨fun _ h => h, fun _ h => h⟩
  obtain ⟨c, h1, h2, -⟩ := reads_pat e _ _ _ h
  subst h2
  rw [List.nil_append] at h1
  subst h1
  unfold pat Re.plus at h
  generalize hr : (Re.seq (.cls q) (.star q)).run t = l at h
  cases l with
  | nil => cases h
  | cons u l =>
    simp only [Res.ok.injEq] at h
    obtain ⟨-, rfl⟩ := h
    have hm : u ∈ (Re.seq (.cls q) (.star q)).run u := hr ▸ List.mem_cons_self
    cases u with
    | nil => simp [Re.run] at hm
    | cons x t =>
      simp only [Re.run] at hm
      split at hm
      · simp at hm
        obtain ⟨c, hc, -⟩ := starRests_inv hm
        have := congrArg List.length hc
        simp at this
        omega
      · simp at hm

theorem reads_number : Reads intP (fun c a => a = c ∧ c ≠ [] ∧ ∀ x ∈ c, x.isDigit = true) := by
  intro t a r h
  obtain ⟨c, rfl, rfl, h2⟩ := reads_intP _ _ _ h
  exact ⟨a, rfl, rfl, pat_plus_ne h, h2⟩

/-- Nothing, or a number and blanks. -/
def Numbering (d : List Char) : Prop :=
  d = [] ∨ ∃ n b, d = n ++ b ∧ n ≠ [] ∧ (∀ c ∈ n, c.isDigit = true) ∧ b ≠ [] ∧ ∀ c ∈ b, isBlank c = true

theorem Numbering.noNl {d : List Char} (h : Numbering d) : '\n' ∉ d := by
  rcases h with rfl | ⟨n, b, rfl, -, hn, -, hb⟩
  · simp
  · simp [digit_notNl hn, blanks_notNl hb]

theorem reads_numbering : Reads (opt (do let _ ← intP; ws)) (fun c _ => Numbering c) := by
  intro t a r h
  unfold Peg.opt at h
  generalize hv : (do let _ ← intP; ws : P Unit) t = v at h
  cases v with
  | fail => cases h; exact ⟨[], rfl, Or.inl rfl⟩
  | raise e => cases h
  | ok b s =>
    cases h
    obtain ⟨c, rfl, c1, c2, x, rfl, ⟨-, h1, h2⟩, h3, h4⟩ := Reads.bind reads_number (fun _ => reads_blanks) _ _ _ hv
    exact ⟨_, rfl, Or.inr ⟨c1, c2, rfl, h1, h2, h3, h4⟩⟩

theorem reads_seqMode : Reads (seqMode g) (fun c m => m ∈ ["permit", "deny"] ∧
    ∃ d b, c = d ++ (m.toList ++ b) ∧ Numbering d ∧ b ≠ [] ∧ ∀ x ∈ b, isBlank x = true) := by
  unfold seqMode
  refine (Reads.bind reads_numbering fun _ => Reads.bind (reads_oneOf g _) fun m => Reads.bind reads_blanks fun _ => reads_pure m).mono ?_
  rintro c m ⟨d, c2, -, rfl, hd, c3, c4, m', rfl, ⟨hm, rfl⟩, b, c6, -, rfl, ⟨hb, hb'⟩, rfl, rfl⟩
  exact ⟨hm, d, b, by simp, hd, hb, hb'⟩

theorem words_numbered {d b r : List Char} {w : String} (hd : Numbering d) (hw : w.toList ≠ []) (hw' : ∀ c ∈ w.toList, isBlank c = false)
    (hb : b ≠ []) (hb' : ∀ c ∈ b, isBlank c = true) :
    words (d ++ (w.toList ++ (b ++ r))) = w :: words r ∨
    ∃ n : String, (∀ c ∈ n.toList, c.isDigit = true) ∧ words (d ++ (w.toList ++ (b ++ r))) = n :: w :: words r := by
  rcases hd with rfl | ⟨n, b', rfl, hn, hn', h1, h2⟩
  · exact Or.inl (words_cons hw hw' hb hb')
  · refine Or.inr ⟨String.ofList n, by simpa using hn', ?_⟩
    have := words_cons (w := String.ofList n) (b := b') (r := w.toList ++ (b ++ r)) (by simpa using hn)
      (by simpa using fun c hc => digit_notBlank (hn' c hc)) h1 h2
    rw [String.toList_ofList] at this
    rw [List.append_assoc, this, words_cons hw hw' hb hb']

/-- An entry of a list with its remarks: one rule. -/
def Entry (c : List Char) (r : IRule) : Prop := ∀ n, Moves (some n) [] c (some n) [] [(n, r.mode)]

theorem step_indented (n : String) (r : List Char) :
    step (some n) (' ' :: r) = (some n, match action (words r) with | some m => [(n, m)] | none => []) := by
  unfold step
  cases h : action (words r) <;> simp [h]

/-- A line of an entry whose words are known. -/
theorem entry_line {d b u e : List Char} {w : String} (hd : Numbering d) (hw : w.toList ≠ []) (hw' : ∀ c ∈ w.toList, isBlank c = false)
    (hn : '\n' ∉ w.toList) (hb : b ≠ []) (hb' : ∀ c ∈ b, isBlank c = true) (hu : '\n' ∉ u) (he : Eol e) {n : String}
    {o : List (String × String)}
    (h1 : ∀ ws, (match action (w :: ws) with | some m => [(n, m)] | none => []) = o)
    (h2 : ∀ (i : String) ws, (∀ c ∈ i.toList, c.isDigit = true) → (match action (i :: w :: ws) with | some m => [(n, m)] | none => []) = o) :
    Moves (some n) [] (' ' :: (d ++ (w.toList ++ (b ++ (u ++ e))))) (some n) [] o := by
  have e1 : ' ' :: (d ++ (w.toList ++ (b ++ (u ++ e)))) = (' ' :: (d ++ (w.toList ++ (b ++ u)))) ++ e := by simp
  rw [e1]
  refine Moves.whole (by simp [hd.noNl, hn, blanks_notNl hb', hu]) he ⟨_, _, rfl, by decide⟩ ?_
  intro v _
  have e2 : [] ++ (' ' :: (d ++ (w.toList ++ (b ++ u))) ++ v) = ' ' :: (d ++ (w.toList ++ (b ++ (u ++ v)))) := by simp
  rw [e2, step_indented]
  rcases words_numbered (r := u ++ v) hd hw hw' hb hb' with h | ⟨i, hi, h⟩
  · rw [h, h1]
  · rw [h, h2 i _ hi]

theorem reads_namedRemark : Reads (namedRemark g) (fun c _ => ∀ n, Moves (some n) [] c (some n) [] []) := by
  unfold namedRemark
  refine (Reads.bind reads_sp fun _ => Reads.bind reads_numbering fun _ => Reads.bind (reads_tok g _) fun _ =>
    Reads.bind reads_sp fun _ => Reads.bind reads_toeol fun x => Reads.bind reads_nl fun _ => reads_pure x).mono ?_
  rintro c r ⟨c1, c2, -, rfl, rfl, d, c4, -, rfl, hd, c5, c6, -, rfl, ⟨-, rfl⟩, c7, c8, -, rfl, rfl, u, c10, x, rfl, ⟨rfl, hu⟩,
    e, c12, -, rfl, he, rfl, rfl⟩
  intro n
  have := entry_line (d := d) (b := [' ']) (e := e) (w := "remark") (n := n) (o := []) hd (by decide) (by decide)
    (by decide) (by decide) (by decide) hu he (fun ws => by rw [action_remark]) (fun i ws hi => by rw [action_numRemark hi])
  simpa using this

theorem reads_entryRest {p : P IRule} {q : String → P IRule} (hp : p = (seqMode g >>= q))
    (hq : ∀ m, LR (fun r => r.mode = m) (q m)) : Reads (do sp; p) Entry := by
  subst hp
  refine (Reads.bind reads_sp fun _ => Reads.bind reads_seqMode fun m => hq m).mono ?_
  rintro c r ⟨c1, c2, -, rfl, rfl, c3, c4, m, rfl, ⟨hm, d, b, rfl, hd, hb, hb'⟩, rfl, u, e, rfl, hu, he⟩
  obtain ⟨h1, h2, h3, h4⟩ := mode_mem hm
  intro n
  have := entry_line (d := d) (b := b) (u := u) (e := e) (n := n) (o := [(n, r.mode)]) hd h2 h3 h4 hb hb' hu he
    (fun ws => by rw [action_mode h1]) (fun i ws hi => by rw [action_num hi h1])
  simpa using this

theorem reads_remarked {rem : P (List Char)} {p : P IRule} {Q : List Char → IRule → Prop} {R : List Char → Prop}
    (hr : Reads rem (fun c _ => R c)) (hp : Reads p Q)
    (h1 : ∀ c d r rs, R c → Q d r → Q (c ++ d) { r with remark := rs }) (h2 : ∀ d r rs, Q d r → Q d { r with remark := rs }) :
    Reads (IosText.remarked rem p) Q := by
  unfold IosText.remarked
  refine Reads.alt ?_ hp
  refine (Reads.bind (reads_many1 hr) fun rs => Reads.bind hp fun r => reads_pure { r with remark := rs }).mono ?_
  rintro c r' ⟨c1, c2, rs, rfl, ⟨-, hrs⟩, d, c4, r, rfl, hQ, rfl, rfl⟩
  rw [List.append_nil]
  generalize rs = x at *
  clear hr hp
  have : ∀ {c : List Char} {l : List (List Char)}, Rounds (fun c (_ : List Char) => R c) c l → ∀ y, Q (c ++ d) { r with remark := y } := by
    intro c l h
    induction h with
    | nil => intro y; exact h2 _ _ _ hQ
    | cons c e a l hc _ ih => intro y; have := h1 c _ _ y hc (ih y); simpa using this
  exact this hrs x

theorem reads_namedEntry {p : P IRule} (hp : Reads (do sp; p) Entry) : Reads (namedEntry g p) Entry := by
  unfold namedEntry
  refine reads_remarked reads_namedRemark hp ?_ ?_
  · intro c d r rs hc hd n
    exact (hc n).append (hd n)
  · intro d r rs hd n
    exact hd n

theorem extOptions_noNl : ∀ ka ∈ extOptions, '\n' ∉ ka.1.toList := by decide +kernel
theorem stdOptions_noNl : ∀ ka ∈ stdOptions, '\n' ∉ ka.1.toList := by decide +kernel
theorem ip6Options_noNl : ∀ ka ∈ ip6Options, '\n' ∉ ka.1.toList := by decide +kernel
theorem ip6IcmpOptions_noNl : ∀ ka ∈ ip6IcmpOptions, '\n' ∉ ka.1.toList := by decide +kernel

theorem reads_sp_alts {l : List (P IRule)} {Q : List Char → IRule → Prop} (h : ∀ p ∈ l, Reads (do sp; p) Q) : Reads (do sp; alts l) Q := by
  induction l with
  | nil =>
    intro t a r h
    obtain ⟨x, u, -, h2⟩ := bind_inv h
    cases h2
  | cons p l ih =>
    intro t a r ht
    obtain ⟨x, u, h1, h2⟩ := bind_inv ht
    rcases alt_inv h2 with h2 | h2
    · exact h p (by simp) t a r (by rw [bind_ok h1]; exact h2)
    · exact ih (fun q hq => h q (by simp [hq])) t a r (by rw [bind_ok h1]; exact h2)

theorem reads_standardEntry {e : Env} (he : e.Clean) : Reads (namedEntry e.guard (namedStandard e)) Entry := by
  have h1 := inl_iosHost he
  have h2 := inl_optionsOf (g := e.guard) stdOptions_noNl
  refine reads_namedEntry (reads_entryRest (g := e.guard) rfl ?_)
  intro m
  restof

theorem reads_extendedEntry {e : Env} (he : e.Clean) : Reads (namedEntry e.guard (namedExtended e)) Entry := by
  have h1 := inl_iosHost he
  have h2 := inl_optionsOf (g := e.guard) extOptions_noNl
  have h3 := inLine_icmpOptions he
  have h4 := inLine_aclProtocol he
  have h5 := inl_iosNode he
  refine reads_namedEntry (reads_sp_alts ?_)
  intro p hp
  simp only [List.mem_cons, List.not_mem_nil, or_false] at hp
  rcases hp with rfl | rfl | rfl
  · refine reads_entryRest (g := e.guard) rfl ?_
    intro m
    restof
  · refine reads_entryRest (g := e.guard) rfl ?_
    intro m
    restof
  · refine reads_entryRest (g := e.guard) rfl ?_
    intro m
    restof

/-- The rules of a list, by list and action. -/
def heads (l : List IRule) : List (String × String) := l.map (fun r => (r.id, r.mode))

theorem rounds_moves {c : List Char} {l : List IRule} (h : Rounds Entry c l) (n : String) :
    Moves (some n) [] c (some n) [] (l.map (fun r => (n, r.mode))) := by
  induction h with
  | nil => exact .nil _ _
  | cons c d a l hc _ ih => exact (hc n).append ih

/-! ## the head of a named list -/

theorem filter_cr {n v : List Char} (hn : ∀ c ∈ n, isNameChar c = true) (hv : v = [] ∨ v = ['\r']) :
    (n ++ v).filter (· != '\r') = n := by
  rw [List.filter_append]
  have h1 : n.filter (· != '\r') = n := List.filter_eq_self.2 (fun c hc => by
    have := hn c hc
    simp only [bne_iff_ne, ne_eq]
    rintro rfl
    exact absurd this (by decide))
  rw [h1]
  rcases hv with rfl | rfl <;> simp

theorem name_notBlank {n : List Char} (hn : ∀ c ∈ n, isNameChar c = true) : ∀ c ∈ n, isBlank c = false := by
  intro c hc
  cases hb : isBlank c with
  | false => rfl
  | true =>
    simp only [isBlank, Bool.or_eq_true, beq_iff_eq] at hb
    rcases hb with rfl | rfl <;> exact absurd (hn _ hc) (by decide)

theorem name_notNl {n : List Char} (hn : ∀ c ∈ n, isNameChar c = true) : '\n' ∉ n := fun hm => absurd (hn _ hm) (by decide)

/-- The last words of a line: the name, which may be missing, and perhaps a carriage return. -/
theorem words_name {n v : List Char} (hn : ∀ c ∈ n, isNameChar c = true) (hv : v = [] ∨ v = ['\r']) :
    (words (n ++ v) = [] ∧ n = []) ∨ ∃ w, words (n ++ v) = [w] ∧ name w = String.ofList n := by
  have hb : ∀ c ∈ n ++ v, isBlank c = false := by
    intro c hc
    rcases List.mem_append.1 hc with h | h
    · exact name_notBlank hn c h
    · rcases hv with rfl | rfl
      · cases h
      · simp at h; subst h; decide
  rw [words_last hb]
  by_cases e : n ++ v = []
  · exact Or.inl ⟨by simp [e], (List.append_eq_nil_iff.1 e).1⟩
  · refine Or.inr ⟨String.ofList (n ++ v), by simp [e], ?_⟩
    unfold name
    rw [String.toList_ofList, filter_cr hn hv]

/-- Words of the kind read here. -/
def Plainword (w : String) : Prop := w.toList ≠ [] ∧ (∀ c ∈ w.toList, isBlank c = false) ∧ '\n' ∉ w.toList

instance (w : String) : Decidable (Plainword w) := inferInstanceAs (Decidable (_ ∧ _ ∧ _))

theorem step_word (cur : Option String) {w : String} (hw : Plainword w) (r : List Char) :
    step cur (w.toList ++ r) = (opened (words (w.toList ++ r)), numbered (words (w.toList ++ r))) := by
  obtain ⟨h1, h2, -⟩ := hw
  cases e : w.toList with
  | nil => exact absurd e h1
  | cons x l => exact step_other cur (h2 x (by rw [e]; simp))

/-- `ip access-list standard|extended NAME` opens the list. -/
theorem moves_ipHead (cur : Option String) {k : String} (hk : k = "standard" ∨ k = "extended") {b1 b2 b3 n e : List Char}
    (h1 : b1 ≠ [] ∧ ∀ c ∈ b1, isBlank c = true) (h2 : b2 ≠ [] ∧ ∀ c ∈ b2, isBlank c = true)
    (h3 : b3 ≠ [] ∧ ∀ c ∈ b3, isBlank c = true) (hn : ∀ c ∈ n, isNameChar c = true) (he : Eol e) :
    Moves cur [] ("ip".toList ++ (b1 ++ ("access-list".toList ++ (b2 ++ (k.toList ++ (b3 ++ (n ++ e))))))) (some (String.ofList n)) [] [] := by
  have hk' : Plainword k := by rcases hk with rfl | rfl <;> decide
  have e1 : "ip".toList ++ (b1 ++ ("access-list".toList ++ (b2 ++ (k.toList ++ (b3 ++ (n ++ e)))))) =
    ("ip".toList ++ (b1 ++ ("access-list".toList ++ (b2 ++ (k.toList ++ (b3 ++ n)))))) ++ e := by simp only [List.append_assoc]
  rw [e1]
  refine Moves.whole ?_ he ⟨_, _, rfl, by decide⟩ ?_
  · simp only [List.mem_append, not_or]
    exact ⟨by decide, blanks_notNl h1.2, by decide, blanks_notNl h2.2, hk'.2.2, blanks_notNl h3.2, name_notNl hn⟩
  · intro v hv
    have e2 : [] ++ (("ip".toList ++ (b1 ++ ("access-list".toList ++ (b2 ++ (k.toList ++ (b3 ++ n)))))) ++ v) =
      "ip".toList ++ (b1 ++ ("access-list".toList ++ (b2 ++ (k.toList ++ (b3 ++ (n ++ v)))))) := by simp only [List.append_assoc, List.nil_append]
    rw [e2, step_word cur (by decide), words_cons (by decide) (by decide) h1.1 h1.2, words_cons (by decide) (by decide) h2.1 h2.2,
      words_cons hk'.1 hk'.2.1 h3.1 h3.2, numbered_nil (by decide)]
    have hkk : (k == "standard" || k == "extended") = true := by rcases hk with rfl | rfl <;> decide
    have : opened ("ip" :: "access-list" :: k :: words (n ++ v)) = some (String.ofList n) := by
      rcases words_name hn hv with ⟨hw, rfl⟩ | ⟨w, hw, hn'⟩
      · rw [hw]; simp [opened, hkk]
      · rw [hw, ← hn']; simp [opened, hkk]
    rw [this]

/-- `ipv6 access-list NAME` opens the list. -/
theorem moves_ip6Head (cur : Option String) {b1 b2 n e : List Char}
    (h1 : b1 ≠ [] ∧ ∀ c ∈ b1, isBlank c = true) (h2 : b2 ≠ [] ∧ ∀ c ∈ b2, isBlank c = true)
    (hn : ∀ c ∈ n, isNameChar c = true) (he : Eol e) :
    Moves cur [] ("ipv6".toList ++ (b1 ++ ("access-list".toList ++ (b2 ++ (n ++ e))))) (some (String.ofList n)) [] [] := by
  have e1 : "ipv6".toList ++ (b1 ++ ("access-list".toList ++ (b2 ++ (n ++ e)))) =
    ("ipv6".toList ++ (b1 ++ ("access-list".toList ++ (b2 ++ n)))) ++ e := by simp only [List.append_assoc]
  rw [e1]
  refine Moves.whole ?_ he ⟨_, _, rfl, by decide⟩ ?_
  · simp only [List.mem_append, not_or]
    exact ⟨by decide, blanks_notNl h1.2, by decide, blanks_notNl h2.2, name_notNl hn⟩
  · intro v hv
    have e2 : [] ++ (("ipv6".toList ++ (b1 ++ ("access-list".toList ++ (b2 ++ n)))) ++ v) =
      "ipv6".toList ++ (b1 ++ ("access-list".toList ++ (b2 ++ (n ++ v)))) := by simp only [List.append_assoc, List.nil_append]
    rw [e2, step_word cur (by decide), words_cons (by decide) (by decide) h1.1 h1.2, words_cons (by decide) (by decide) h2.1 h2.2,
      numbered_nil (by decide)]
    have : opened ("ipv6" :: "access-list" :: words (n ++ v)) = some (String.ofList n) := by
      rcases words_name hn hv with ⟨hw, rfl⟩ | ⟨w, hw, hn'⟩
      · rw [hw]; simp [opened]
      · rw [hw, ← hn']; simp [opened]
    rw [this]

/-- What the access-list command behind `ip` and blanks reads. -/
theorem reads_ipLists {e : Env} (he : e.Clean) : Reads (ipLists e) (fun c i => ∃ l, i = .rules l ∧ (∃ d, c = "access-list".toList ++ d) ∧
    ∀ cur b1, b1 ≠ [] → (∀ x ∈ b1, isBlank x = true) →
      ∃ n, Moves cur [] ("ip".toList ++ (b1 ++ c)) (some n) [] (heads l)) := by
  unfold ipLists ipAccessList
  have one : ∀ {k : String} {p : P IRule}, (k = "standard" ∨ k = "extended") → Reads p Entry →
      Reads (do
        let x ← tok e.guard k
        ws
        let n ← objName
        nl
        let l ← (many p : P (List IRule))
        pure (l.map (fun r => { r with id := String.ofList n, extended := some x }))) (fun c l => ∀ cur b1 b2,
          (b1 ≠ [] ∧ ∀ x ∈ b1, isBlank x = true) → (b2 ≠ [] ∧ ∀ x ∈ b2, isBlank x = true) →
          ∃ n, Moves cur [] ("ip".toList ++ (b1 ++ ("access-list".toList ++ (b2 ++ c)))) (some n) [] (heads l)) := by
    intro k p hk hp
    refine (Reads.bind (reads_tok _ _) fun x => Reads.bind reads_blanks fun _ => Reads.bind reads_objName fun n =>
      Reads.bind reads_nl fun _ => Reads.bind (reads_many hp) fun l => reads_pure _).mono ?_
    rintro c l ⟨c1, c2, x, rfl, ⟨rfl, rfl⟩, b3, c4, -, rfl, hb3, n, c6, n', rfl, ⟨rfl, hn⟩, eol, c8, -, rfl, heol, c9, c10, l', rfl, hl,
      rfl, rfl⟩
    intro cur b1 b2 h1 h2
    refine ⟨String.ofList n', ?_⟩
    have m1 := moves_ipHead cur hk h1 h2 hb3 hn heol
    have m2 := rounds_moves hl (String.ofList n')
    have := m1.append m2
    simp only [List.nil_append, List.append_assoc, List.append_nil] at this ⊢
    unfold heads
    rw [List.map_map]
    exact this
  refine (Reads.bind (reads_tok _ _) fun _ => Reads.bind reads_blanks fun _ => Reads.bind
    (Reads.alt (one (Or.inl rfl) (reads_standardEntry he)) (one (Or.inr rfl) (reads_extendedEntry he))) fun l => reads_pure _).mono ?_
  rintro c i ⟨c1, c2, -, rfl, ⟨-, rfl⟩, b2, c4, -, rfl, hb2, c5, c6, l, rfl, hl, rfl, rfl⟩
  refine ⟨l, rfl, ⟨_, rfl⟩, fun cur b1 h1 h1' => ?_⟩
  obtain ⟨n, h⟩ := hl cur b1 b2 ⟨h1, h1'⟩ hb2
  exact ⟨n, by simpa using h⟩

/-! ## IPv6 lists -/

theorem reads_ip6Rule {e : Env} (he : e.Clean) : Reads (ip6Rule e) (fun c r => r.mode ∈ ["permit", "deny"] ∧
    ∃ b u eol, c = r.mode.toList ++ (b ++ (u ++ eol)) ∧ b ≠ [] ∧ (∀ x ∈ b, isBlank x = true) ∧ '\n' ∉ u ∧ Eol eol) := by
  have h2 := inl_optionsOf (g := e.guard) ip6Options_noNl
  have h3 := inl_optionsOf (g := e.guard) ip6IcmpOptions_noNl
  have h4 := inLine_aclProtocol he
  have h5 := inl_ios6Node he
  have gen : ∀ {q : String → P IRule}, (∀ m, LR (fun r => r.mode = m) (q m)) →
      Reads (do let m ← mode e.guard; ws; q m) (fun c r => r.mode ∈ ["permit", "deny"] ∧
        ∃ b u eol, c = r.mode.toList ++ (b ++ (u ++ eol)) ∧ b ≠ [] ∧ (∀ x ∈ b, isBlank x = true) ∧ '\n' ∉ u ∧ Eol eol) := by
    intro q hq
    refine (Reads.bind (reads_oneOf _ _) fun m => Reads.bind reads_blanks fun _ => hq m).mono ?_
    rintro c r ⟨c1, c2, m, rfl, ⟨hm, rfl⟩, b, c4, -, rfl, ⟨hb, hb'⟩, rfl, u, eol, rfl, hu, he⟩
    exact ⟨hm, b, u, eol, rfl, hb, hb', hu, he⟩
  unfold ip6Rule
  refine Reads.alt (gen ?_) (gen ?_)
  · intro m
    restof
  · intro m
    restof

theorem reads_ip6Seq {e : Env} (he : e.Clean) : Reads (ip6Seq e) Entry := by
  unfold ip6Seq
  refine (Reads.bind reads_sp fun _ => Reads.bind (reads_tok _ _) fun _ => Reads.bind reads_blanks fun _ => Reads.bind reads_number fun k =>
    Reads.bind reads_blanks fun _ => Reads.bind (reads_ip6Rule he) fun r => reads_pure _).mono ?_
  rintro c r' ⟨c1, c2, -, rfl, rfl, c3, c4, -, rfl, ⟨-, rfl⟩, b1, c6, -, rfl, ⟨hb1, hb1'⟩, k, c8, k', rfl, ⟨rfl, hk, hk'⟩, b2, c10, -, rfl,
    ⟨hb2, hb2'⟩, c11, c12, r, rfl, ⟨hm, b3, u, eol, rfl, hb3, hb3', hu, heol⟩, rfl, rfl⟩
  obtain ⟨h1, h2, h3, h4⟩ := mode_mem hm
  intro n
  have e1 : [' '] ++ ("sequence".toList ++ (b1 ++ (k' ++ (b2 ++ (r.mode.toList ++ (b3 ++ (u ++ eol)) ++ []))))) =
    (' ' :: ("sequence".toList ++ (b1 ++ (k' ++ (b2 ++ (r.mode.toList ++ (b3 ++ u))))))) ++ eol := by simp
  rw [e1]
  refine Moves.whole ?_ heol ⟨_, _, rfl, by decide⟩ ?_
  · simp only [List.mem_cons, List.mem_append, not_or]
    exact ⟨by decide, by decide, blanks_notNl hb1', digit_notNl hk', blanks_notNl hb2', h4, blanks_notNl hb3', hu⟩
  · intro v _
    have e2 : [] ++ ((' ' :: ("sequence".toList ++ (b1 ++ (k' ++ (b2 ++ (r.mode.toList ++ (b3 ++ u))))))) ++ v) =
      ' ' :: ("sequence".toList ++ (b1 ++ ((String.ofList k').toList ++ (b2 ++ (r.mode.toList ++ (b3 ++ (u ++ v))))))) := by simp
    rw [e2, step_indented, words_cons (by decide) (by decide) hb1 hb1', words_cons (by simpa using hk)
      (by simpa using fun c hc => digit_notBlank (hk' c hc)) hb2 hb2', words_cons h2 h3 hb3 hb3', action_seq h1]

theorem reads_ip6AccessList {e : Env} (he : e.Clean) : Reads (ip6AccessList e) (fun c l => (∃ d, c = "access-list".toList ++ d) ∧
    ∀ cur b1, b1 ≠ [] → (∀ x ∈ b1, isBlank x = true) →
      ∃ n, Moves cur [] ("ipv6".toList ++ (b1 ++ c)) (some n) [] (heads l)) := by
  unfold ip6AccessList
  refine (Reads.bind (reads_tok _ _) fun _ => Reads.bind reads_blanks fun _ => Reads.bind reads_objName fun n =>
      Reads.bind reads_nl fun _ => Reads.bind (reads_many1 (reads_ip6Seq he)) fun l => reads_pure _).mono ?_
  rintro c l ⟨c1, c2, -, rfl, ⟨-, rfl⟩, b2, c4, -, rfl, hb2, n, c6, n', rfl, ⟨rfl, hn⟩, eol, c8, -, rfl, heol, c9, c10, l', rfl, ⟨-, hl⟩,
    rfl, rfl⟩
  refine ⟨⟨_, rfl⟩, fun cur b1 h1 h1' => ⟨String.ofList n', ?_⟩⟩
  have m1 := moves_ip6Head cur ⟨h1, h1'⟩ hb2 hn heol
  have m2 := rounds_moves hl (String.ofList n')
  have := m1.append m2
  simp only [List.nil_append, List.append_assoc, List.append_nil] at this ⊢
  unfold heads
  rw [List.map_map]
  exact this

/-! ## numbered lists -/

/-- A word between blanks is not empty. -/
theorem reads_between {i : P (List Char)} {f : List Char → P β} {Q : List Char → Prop} {R : List Char → List Char → β → Prop}
    (hi : Reads i (fun c a => a = c ∧ Q c)) (hf : ∀ n, Reads (f n) (R n)) :
    Reads (do ws; let n ← i; ws; f n) (fun c x => ∃ b1 n b2 d, c = b1 ++ (n ++ (b2 ++ d)) ∧ (b1 ≠ [] ∧ ∀ x ∈ b1, isBlank x = true) ∧
      n ≠ [] ∧ Q n ∧ (b2 ≠ [] ∧ ∀ x ∈ b2, isBlank x = true) ∧ R n d x) := by
  intro t x r h
  obtain ⟨a, t1, h1, k1⟩ := bind_inv h
  obtain ⟨n, t2, h2, k2⟩ := bind_inv k1
  obtain ⟨a2, t3, h3, k3⟩ := bind_inv k2
  obtain ⟨b1, rfl, hb1⟩ := reads_blanks _ _ _ h1
  obtain ⟨n', rfl, rfl, hq⟩ := hi _ _ _ h2
  obtain ⟨b2, rfl, hb2, hb2'⟩ := reads_blanks _ _ _ h3
  obtain ⟨d, rfl, hd⟩ := hf _ _ _ _ k3
  refine ⟨_, by simp only [List.append_assoc], b1, n, b2, d, rfl, hb1, ?_, hq, ⟨hb2, hb2'⟩, hd⟩
  rintro rfl
  cases b2 with
  | nil => exact hb2 rfl
  | cons y b2 =>
    have h5 := ws_max h1 y (by simp)
    have h6 := hb2' y (by simp)
    simp only [isBlank, Bool.or_eq_true, beq_iff_eq] at h6
    rcases h6 with h6 | h6
    · exact h5.1 h6
    · exact h5.2 h6

theorem range_digit {a b : Char} (ha : '0' ≤ a) (hb : b ≤ '9') {c : Char} (h1 : a ≤ c) (h2 : c ≤ b) : c.isDigit = true := by
  have h3 : '0' ≤ c := Char.le_trans ha h1
  have h4 : c ≤ '9' := Char.le_trans h2 hb
  simp only [Char.isDigit, Bool.and_eq_true, decide_eq_true_eq]
  exact ⟨h3, h4⟩

theorem reads_digitsRe {l : List (Char × Char)} (h : ∀ r ∈ l, '0' ≤ r.1 ∧ r.2 ≤ '9') :
    Reads (pat (digitsRe l)) (fun c a => a = c ∧ ∀ x ∈ c, x.isDigit = true) := by
  refine reads_pat (P := fun c => c.isDigit = true) ?_
  induction l with
  | nil => trivial
  | cons x l ih =>
    refine ⟨?_, ih (fun r hr => h r (by simp [hr]))⟩
    intro c hc
    simp only [Bool.and_eq_true, decide_eq_true_eq] at hc
    have := h x (by simp)
    exact range_digit this.1 this.2 hc.1 hc.2

theorem reads_id {p : P (List Char)} (hp : Reads p (fun c a => a = c ∧ ∀ x ∈ c, x.isDigit = true)) :
    Reads (do let i ← p; ahead ws; pure i) (fun c a => a = c ∧ ∀ x ∈ c, x.isDigit = true) := by
  intro t x r h
  obtain ⟨a, t1, h1, h⟩ := bind_inv h
  obtain ⟨b, t2, h2, h⟩ := bind_inv h
  cases h
  unfold ahead at h2
  split at h2
  · cases h2; exact hp _ _ _ h1
  · cases h2
  · cases h2

theorem reads_standardId : Reads standardId (fun c a => a = c ∧ ∀ x ∈ c, x.isDigit = true) := by
  unfold standardId
  refine Reads.alt (reads_id ?_) (reads_id (reads_digitsRe (by decide)))
  refine reads_pat (P := fun c => c.isDigit = true) ?_
  refine ⟨?_, ?_, trivial⟩
  all_goals
    intro c hc
    simp only [Bool.and_eq_true, decide_eq_true_eq] at hc
    exact range_digit (by decide) (by decide) hc.1 hc.2

theorem reads_extendedId : Reads extendedId (fun c a => a = c ∧ ∀ x ∈ c, x.isDigit = true) := by
  unfold extendedId
  exact Reads.alt (reads_id (reads_digitsRe (by decide))) (reads_id (reads_digitsRe (by decide)))

/-- `access-list N permit|deny ...` is a rule. -/
theorem reads_numRule {i : P (List Char)} {q : String × String → P IRule}
    (hi : Reads i (fun c a => a = c ∧ ∀ x ∈ c, x.isDigit = true)) (hq : ∀ x, LR (fun r => r.id = x.1 ∧ r.mode = x.2) (q x)) :
    Reads (numHead g i >>= q) (fun c r => (∃ d, c = "access-list".toList ++ d) ∧ ∀ cur, Moves cur [] c none [] [(r.id, r.mode)]) := by
  have h0 : Reads (numHead g i) (fun c x => ∃ b1 n b2 b3, c = "access-list".toList ++ (b1 ++ (n ++ (b2 ++ (x.2.toList ++ b3)))) ∧
      (b1 ≠ [] ∧ ∀ x ∈ b1, isBlank x = true) ∧ n ≠ [] ∧ (∀ x ∈ n, x.isDigit = true) ∧ (b2 ≠ [] ∧ ∀ x ∈ b2, isBlank x = true) ∧
      (b3 ≠ [] ∧ ∀ x ∈ b3, isBlank x = true) ∧ x.1 = String.ofList n ∧ x.2 ∈ ["permit", "deny"]) := by
    unfold numHead
    refine (Reads.bind (reads_tok _ _) fun _ => reads_between hi fun n => Reads.bind (reads_oneOf _ _) fun m =>
      Reads.bind reads_blanks fun _ => reads_pure (String.ofList n, m)).mono ?_
    rintro c r ⟨c1, c2, -, rfl, ⟨-, rfl⟩, b1, n, b2, d, rfl, hb1, hn, hn', hb2, c4, c5, m, rfl, ⟨hm, rfl⟩, b3, c7, -, rfl, hb3, rfl, rfl⟩
    exact ⟨b1, n, b2, b3, by simp, hb1, hn, hn', hb2, hb3, rfl, hm⟩
  refine (Reads.bind h0 hq).mono ?_
  rintro c r ⟨c1, c2, ⟨i', m⟩, rfl, ⟨b1, n, b2, b3, rfl, hb1, hn, hn', hb2, hb3, hi', hm⟩, ⟨hr1, hr2⟩, u, eol, rfl, hu, heol⟩
  dsimp only at hi' hm hr1 hr2
  subst hi'
  have e0 : ("access-list".toList ++ (b1 ++ (n ++ (b2 ++ (m.toList ++ b3))))) ++ (u ++ eol) =
    "access-list".toList ++ (b1 ++ (n ++ (b2 ++ (m.toList ++ (b3 ++ (u ++ eol)))))) := by simp only [List.append_assoc]
  dsimp only
  rw [e0]
  refine ⟨⟨_, rfl⟩, fun cur => ?_⟩
  obtain ⟨h1, h2, h3, h4⟩ := mode_mem hm
  have e1 : "access-list".toList ++ (b1 ++ (n ++ (b2 ++ (m.toList ++ (b3 ++ (u ++ eol)))))) =
    ("access-list".toList ++ (b1 ++ (n ++ (b2 ++ (m.toList ++ (b3 ++ u)))))) ++ eol := by simp only [List.append_assoc]
  rw [e1]
  refine Moves.whole ?_ heol ⟨_, _, rfl, by decide⟩ ?_
  · simp only [List.mem_append, not_or]
    exact ⟨by decide, blanks_notNl hb1.2, digit_notNl hn', blanks_notNl hb2.2, h4, blanks_notNl hb3.2, hu⟩
  · intro v _
    have e2 : [] ++ (("access-list".toList ++ (b1 ++ (n ++ (b2 ++ (m.toList ++ (b3 ++ u)))))) ++ v) =
      "access-list".toList ++ (b1 ++ ((String.ofList n).toList ++ (b2 ++ (m.toList ++ (b3 ++ (u ++ v)))))) := by
      simp only [List.append_assoc, List.nil_append, String.toList_ofList]
    rw [e2, step_word cur (by decide), words_cons (by decide) (by decide) hb1.1 hb1.2, words_cons (by simpa using hn)
      (by simpa using fun c hc => digit_notBlank (hn' c hc)) hb2.1 hb2.2, words_cons h2 h3 hb3.1 hb3.2,
      opened_none (by decide) (by decide)]
    simp only [numbered, h1, if_true, hr1, hr2]

theorem reads_numRemark : Reads (numRemark g) (fun c _ => (∃ d, c = "access-list".toList ++ d) ∧ ∀ cur, Moves cur [] c none [] []) := by
  unfold numRemark
  refine (Reads.bind (reads_tok _ _) fun _ => reads_between reads_objName fun _ => Reads.bind (reads_tok _ _) fun _ =>
    Reads.bind reads_blanks fun _ => Reads.bind reads_toeol fun x => Reads.bind reads_nl fun _ => reads_pure x).mono ?_
  rintro c r ⟨c1, c2, -, rfl, ⟨-, rfl⟩, b1, n, b2, d, rfl, hb1, hn, hn', hb2, c4, c5, -, rfl, ⟨-, rfl⟩, b3, c7, -, rfl, hb3, u, c9, x, rfl,
    ⟨rfl, hu⟩, eol, c11, -, rfl, heol, rfl, rfl⟩
  refine ⟨⟨_, rfl⟩, fun cur => ?_⟩
  have e1 : "access-list".toList ++ (b1 ++ (n ++ (b2 ++ ("remark".toList ++ (b3 ++ (r ++ (eol ++ []))))))) =
    ("access-list".toList ++ (b1 ++ (n ++ (b2 ++ ("remark".toList ++ (b3 ++ r)))))) ++ eol := by simp only [List.append_assoc, List.append_nil]
  rw [e1]
  refine Moves.whole ?_ heol ⟨_, _, rfl, by decide⟩ ?_
  · simp only [List.mem_append, not_or]
    exact ⟨by decide, blanks_notNl hb1.2, name_notNl hn', blanks_notNl hb2.2, by decide, blanks_notNl hb3.2, hu⟩
  · intro v _
    have e2 : [] ++ (("access-list".toList ++ (b1 ++ (n ++ (b2 ++ ("remark".toList ++ (b3 ++ r)))))) ++ v) =
      "access-list".toList ++ (b1 ++ ((String.ofList n).toList ++ (b2 ++ ("remark".toList ++ (b3 ++ (r ++ v)))))) := by
      simp only [List.append_assoc, List.nil_append, String.toList_ofList]
    rw [e2, step_word cur (by decide), words_cons (by decide) (by decide) hb1.1 hb1.2, words_cons (by simpa using hn)
      (by simpa using name_notBlank hn') hb2.1 hb2.2, words_cons (by decide) (by decide) hb3.1 hb3.2,
      opened_none (by decide) (by decide)]
    have : isMode "remark" = false := by decide
    simp only [numbered, this, Bool.false_eq_true, if_false]

/-- One rule of a numbered list, with the remarks in front of it. -/
def NumEntry (c : List Char) (r : IRule) : Prop :=
  (∃ d, c = "access-list".toList ++ d) ∧ ∀ cur, Moves cur [] c none [] [(r.id, r.mode)]

theorem reads_numStandard {e : Env} (he : e.Clean) : Reads (numStandard e) NumEntry := by
  have h1 := inl_iosHost he
  have h2 := inl_optionsOf (g := e.guard) stdOptions_noNl
  unfold numStandard
  refine reads_numRule reads_standardId ?_
  rintro ⟨i, m⟩
  dsimp only
  restof

theorem reads_numExtended {e : Env} (he : e.Clean) : Reads (numExtended e) NumEntry := by
  have h1 := inLine_aclHost he
  have h2 := inl_optionsOf (g := e.guard) extOptions_noNl
  have h3 := inLine_icmpOptions he
  have h4 := inLine_aclProtocol he
  have h5 := inLine_node he
  unfold numExtended
  refine Reads.alt (reads_numRule reads_extendedId ?_) (reads_numRule reads_extendedId ?_)
  · rintro ⟨i, m⟩
    dsimp only
    restof
  · rintro ⟨i, m⟩
    dsimp only
    restof

theorem reads_numEntry {p : P IRule} (hp : Reads p NumEntry) : Reads (IosText.remarked (numRemark g) p) NumEntry := by
  refine reads_remarked reads_numRemark hp ?_ ?_
  · rintro c d r rs ⟨⟨x, rfl⟩, hc⟩ ⟨-, hd⟩
    refine ⟨⟨x ++ d, by simp⟩, fun cur => ?_⟩
    exact (hc cur).append (hd none)
  · intro d r rs hd
    exact hd

theorem reads_accessList {e : Env} (he : e.Clean) : Reads (IosText.accessList e) NumEntry :=
  Reads.alt (reads_numEntry (reads_numExtended he)) (reads_numEntry (reads_numStandard he))

end Acltk.IosLines
