import Verif.Model.FwsmText
import Verif.Spec.FwsmSpec
import Verif.Props.AclLineInv
import Verif.Props.Iface
/-!
# What a command of a configuration reads

A small program logic over the text of the current line that has been read already.
-/
namespace Acltk.FwsmText
open Acltk Acltk.Lookup Acltk.Peg Acltk.AclText

variable {α β : Type}

/-- `access-list` -/
def AL : List Char := "access-list".toList

/-- The line can no more become an access-list line. -/
def Dead (p : List Char) : Prop := AL.isPrefixOf p = false ∧ p.isPrefixOf AL = false

instance (p : List Char) : Decidable (Dead p) := inferInstanceAs (Decidable (_ ∧ _))

theorem isPrefixOf_append_false {p q a : List Char} (h1 : a.isPrefixOf p = false) (h2 : p.isPrefixOf a = false) :
    a.isPrefixOf (p ++ q) = false ∧ (p ++ q).isPrefixOf a = false := by
  induction p generalizing a with
  | nil => simp at h2
  | cons x p ih =>
    cases a with
    | nil => simp at h1
    | cons y a =>
      simp only [List.isPrefixOf_cons₂, Bool.and_eq_false_iff, List.cons_append] at h1 h2 ⊢
      by_cases e : y = x
      · subst e
        simp at h1 h2
        have := ih h1 h2
        simp [this]
      · have e' : ¬ x = y := fun h => e h.symm
        simp [e, e']

theorem Dead.append {p : List Char} (h : Dead p) (q : List Char) : Dead (p ++ q) := isPrefixOf_append_false h.1 h.2

theorem spaced_head {w : String} {l : List String} {t : List Char} (h : Spaced (w :: l) t) : ∃ u, t = w.toList ++ u := by
  cases h with
  | one => exact ⟨[], by simp⟩
  | cons w b ws t _ _ _ => exact ⟨b ++ t, by simp⟩

theorem Dead.notHeader {p : List Char} (h : Dead p) (i k m : String) : ¬ Header p i k m := by
  rintro ⟨-, -, -, hd, b, u, hs, -, rfl⟩
  obtain ⟨v, rfl⟩ := spaced_head hs
  have := h.1
  have e : AL.isPrefixOf (AL ++ (v ++ (b :: u))) = true := List.isPrefixOf_iff_prefix.2 ⟨_, rfl⟩
  rw [← List.append_assoc] at e
  change AL.isPrefixOf (AL ++ v ++ b :: u) = false at this
  rw [e] at this
  cases this

theorem Dead.other {p : List Char} (h : Dead p) : Other p := by
  refine Or.inl fun hp => ?_
  have := List.isPrefixOf_iff_prefix.2 hp
  have h1 := h.1
  unfold AL at h1
  rw [this] at h1
  cases h1

theorem Other.nil : Other [] := Or.inl (by rintro ⟨u, hu⟩; cases hu)

/-- No rule line ends in the text `c` read behind `p`; then `q` has been read of the current line. -/
inductive Quiet : List Char → List Char → List Char → Prop
  | nil (p) : Quiet p [] p
  | chr (p x c q) : x ≠ '\n' → Quiet (p ++ [x]) c q → Quiet p (x :: c) q
  | nl (p c q) : Other p → Quiet [] c q → Quiet p ('\n' :: c) q

theorem Quiet.append {p c q d s : List Char} (h : Quiet p c q) (h2 : Quiet q d s) : Quiet p (c ++ d) s := by
  induction h with
  | nil p => exact h2
  | chr p x c q hx _ ih => exact .chr _ _ _ _ hx (ih h2)
  | nl p c q hn _ ih => exact .nl _ _ _ hn (ih h2)

theorem Quiet.line {p c : List Char} (h : '\n' ∉ c) : Quiet p c (p ++ c) := by
  induction c generalizing p with
  | nil => simpa using Quiet.nil p
  | cons x c ih =>
    simp at h
    refine .chr _ _ _ _ (fun e => h.1 e.symm) ?_
    have := ih (p := p ++ [x]) h.2
    simpa using this

theorem Quiet.noNl {p c q : List Char} (h : Quiet p c q) (hp : '\n' ∉ p) : '\n' ∉ q := by
  induction h with
  | nil p => exact hp
  | chr p x c q hx _ ih =>
    apply ih
    simp only [List.mem_append, List.mem_singleton, not_or]
    exact ⟨hp, fun e => hx e.symm⟩
  | nl p c q _ _ ih => exact ih (by simp)

/-- An assertion about what has been read of the current line and what comes. -/
abbrev As := List Char → Text → Prop

/-- From a position with `A`, whenever the rule accepts, no rule line has ended and `B` holds. -/
def T (A : As) (p : P α) (B : As) : Prop :=
  ∀ pre t a r, '\n' ∉ pre → A pre t → p t = .ok a r → ∃ c pre', t = c ++ r ∧ Quiet pre c pre' ∧ B pre' r

/-- At the beginning of a line. -/
def S0 : As := fun p _ => p = []
/-- In a line that is no access-list line. -/
def SD : As := fun p _ => Dead p
/-- At the beginning, or in such a line. -/
def SX : As := fun p _ => p = [] ∨ Dead p
/-- Behind blanks only. -/
def SB : As := fun p _ => ∀ c ∈ p, c = ' '
/-- Behind at least one blank. -/
def SC : As := fun p _ => p ≠ [] ∧ ∀ c ∈ p, c = ' '
/-- In such a line, and what comes does not begin with an `a`. -/
def SN : As := fun p t => Dead p ∧ t.head? ≠ some 'a'
/-- Between two commands. -/
def SE : As := fun p t => p = [] ∨ Dead p ∧ (t.head? ≠ some 'a' ∨ ∀ c ∈ p, c = ' ')

theorem SC.dead {p : List Char} {t : Text} (h : SC p t) : Dead p := by
  obtain ⟨h1, h2⟩ := h
  cases p with
  | nil => exact absurd rfl h1
  | cons x p =>
    have := h2 x (by simp)
    subst this
    exact Dead.append (p := [' ']) (by decide) p

variable {A B C D : As}

theorem T.pre {p : P α} (h : T B p C) (hi : ∀ p t, A p t → B p t) : T A p C :=
  fun pre t a r hn hA hp => h pre t a r hn (hi _ _ hA) hp

theorem T.post {p : P α} (h : T A p B) (hi : ∀ p t, B p t → C p t) : T A p C := by
  intro pre t a r hn hA hp
  obtain ⟨c, q, h1, h2, h3⟩ := h pre t a r hn hA hp
  exact ⟨c, q, h1, h2, hi _ _ h3⟩

theorem T.bind {p : P α} {f : α → P β} (h : T A p B) (hf : ∀ a, T B (f a) C) : T A (p >>= f) C := by
  intro pre t b r hn hA hb
  obtain ⟨a, s, h1, h2⟩ := bind_inv hb
  obtain ⟨c, q, rfl, hq, hB⟩ := h _ _ _ _ hn hA h1
  obtain ⟨d, q2, rfl, hq2, hC⟩ := hf a _ _ _ _ (hq.noNl hn) hB h2
  exact ⟨c ++ d, q2, by simp, hq.append hq2, hC⟩

theorem T.empty {p : P α} (h : Reads p (fun c _ => c = [])) : T A p A := by
  intro pre t b r hn hA hb
  obtain ⟨c, rfl, rfl⟩ := h _ _ _ hb
  exact ⟨[], pre, rfl, .nil _, hA⟩

theorem T.pure (a : α) : T A (pure a : P α) A := T.empty ((reads_pure a).mono (fun _ _ h => h.1))

theorem T.act (x : Py α) : T A (act x) A := T.empty ((reads_act x).mono (fun _ _ h => h.1))

theorem T.alt {p q : P α} (hp : T A p B) (hq : T A q B) : T A (alt p q) B := by
  intro pre t a r hn hA h
  rcases alt_inv h with h | h
  · exact hp _ _ _ _ hn hA h
  · exact hq _ _ _ _ hn hA h

theorem T.failP : T A (failP : P α) B := by
  intro pre t a r hn hA h
  cases h

theorem T.alts_nil : T A (alts ([] : List (P α))) B := T.failP

theorem T.alts_cons {p : P α} {l : List (P α)} (hp : T A p B) (hl : T A (alts l) B) : T A (alts (p :: l)) B :=
  T.alt hp hl

theorem T.opt {p : P α} (hp : T A p B) : T A (opt p) (fun q t => A q t ∨ B q t) := by
  intro pre t a r hn hA h
  unfold Peg.opt at h
  generalize hv : p t = v at h
  cases v with
  | ok b s =>
    cases h
    obtain ⟨c, q, h1, h2, h3⟩ := hp _ _ _ _ hn hA hv
    exact ⟨c, q, h1, h2, Or.inr h3⟩
  | fail => cases h; exact ⟨[], pre, rfl, .nil _, Or.inl hA⟩
  | raise e => cases h

/-- An optional part that leads back. -/
theorem T.opt' {p : P α} (hp : T A p A) : T A (Peg.opt p) A := (T.opt hp).post (fun _ _ h => h.elim id id)

theorem T.many {p : P α} (hp : T A p A) : T A (many p) A := by
  intro pre t
  generalize hlen : t.length = n
  induction n using Nat.strongRecOn generalizing t pre with
  | _ n ih =>
    intro a r hn hA hm
    rw [Peg.many] at hm
    generalize hv : p t = v at hm
    cases v with
    | fail => cases hm; exact ⟨[], pre, rfl, .nil _, hA⟩
    | raise e => cases hm
    | ok b s =>
      simp only at hm
      split at hm
      · rename_i hl
        generalize hw : Peg.many p s = w at hm
        cases w with
        | fail => cases hm
        | raise e => cases hm
        | ok l u =>
          cases hm
          obtain ⟨c, q, rfl, h2, h3⟩ := hp _ _ _ _ hn hA hv
          obtain ⟨d, q2, rfl, h4, h5⟩ := ih s.length (by omega) _ s rfl _ _ (h2.noNl hn) h3 hw
          exact ⟨c ++ d, q2, by simp, h2.append h4, h5⟩
      · cases hm; exact ⟨[], pre, rfl, .nil _, hA⟩

theorem T.inl {p : P α} (h : InLine p) : T SD p SD := by
  intro pre t a r hn hA hp
  obtain ⟨c, rfl, hc⟩ := h _ _ _ hp
  exact ⟨c, pre ++ c, rfl, .line hc, hA.append c⟩

theorem T.tok {g : Guard} {s : String} (hs : Dead s.toList) (hn : '\n' ∉ s.toList) : T SX (tok g s) SD := by
  intro pre t a r hp hA h
  obtain ⟨c, rfl, -, rfl⟩ := reads_tok _ _ _ _ _ h
  refine ⟨s.toList, pre ++ s.toList, rfl, .line hn, ?_⟩
  rcases hA with rfl | hA
  · exact hs
  · exact hA.append _

theorem Quiet.nlRead {p c : List Char} (hp : p = [] ∨ Dead p) (hc : c = ['\n'] ∨ c = ['\r', '\n']) : Quiet p c [] := by
  rcases hc with rfl | rfl
  · refine .nl _ _ _ ?_ (.nil _)
    rcases hp with rfl | hp
    · exact .nil
    · exact hp.other
  · refine .chr _ _ _ _ (by decide) (.nl _ _ _ ?_ (.nil _))
    rcases hp with rfl | hp
    · exact Dead.other (by decide)
    · exact (hp.append _).other

theorem T.nl : T SX nl S0 := by
  intro pre t a r hn hA h
  obtain ⟨c, rfl, hc⟩ := reads_nl _ _ _ h
  exact ⟨c, [], rfl, .nlRead hA hc, rfl⟩

theorem T.nl' : T SD Peg.nl S0 := T.nl.pre (fun _ _ h => Or.inr h)

theorem T.sp : T SB sp SC := by
  intro pre t a r hn hA h
  obtain ⟨c, rfl, rfl⟩ := reads_sp _ _ _ h
  refine ⟨[' '], pre ++ [' '], rfl, .line (by decide), by simp, ?_⟩
  intro c hc
  rcases List.mem_append.1 hc with h | h
  · exact hA c h
  · simpa using h

theorem T.sp0 : T S0 Peg.sp SD := (T.sp.pre (by intro p t h; have : p = [] := h; subst this; intro c hc; simp at hc)).post (fun _ _ h => h.dead)

theorem T.spX : T SX Peg.sp SD := by
  intro pre t a r hn hA h
  obtain ⟨c, rfl, rfl⟩ := reads_sp _ _ _ h
  refine ⟨[' '], pre ++ [' '], rfl, .line (by decide), ?_⟩
  rcases hA with rfl | hA
  · show Dead _
    decide
  · exact hA.append _

theorem S0.sb {p : List Char} {t : Text} (h : S0 p t) : SB p t := by
  rw [h]; intro c hc; simp at hc

theorem SB.se {p : List Char} {t : Text} (h : SB p t) : SE p t := by
  by_cases e : p = []
  · exact Or.inl e
  · exact Or.inr ⟨SC.dead (t := t) ⟨e, h⟩, Or.inr h⟩

theorem S0.se {p : List Char} {t : Text} (h : S0 p t) : SE p t := Or.inl h

theorem SE.sx {p : List Char} {t : Text} (h : SE p t) : SX p t := h.elim Or.inl (fun h => Or.inr h.1)

/-! ## one line -/

/-- The rule reads up to the end of the line, and no other line. -/
def OL (p : P α) : Prop := T SD p S0

theorem OL.bind {p : P α} {f : α → P β} (h : InLine p) (hf : ∀ a, OL (f a)) : OL (p >>= f) := T.bind (T.inl h) hf

theorem OL.nl : OL nl := T.nl'

/-- Nothing is read. -/
def Em (p : P α) : Prop := Reads p (fun c _ => c = [])

theorem OL.nlBind {f : Unit → P β} (hf : ∀ a, Em (f a)) : OL (Peg.nl >>= f) := T.bind T.nl' (fun a => T.empty (hf a))

theorem OL.alts_cons {p : P α} {l : List (P α)} (hp : OL p) (hl : OL (alts l)) : OL (alts (p :: l)) := T.alt hp hl
theorem OL.alts_nil : OL (alts ([] : List (P α))) := T.failP

theorem Em.pure (a : α) : Em (pure a : P α) := (reads_pure a).mono (fun _ _ h => h.1)
theorem Em.act (x : Py α) : Em (act x) := (reads_act x).mono (fun _ _ h => h.1)
theorem Em.bind {p : P α} {f : α → P β} (h : Em p) (hf : ∀ a, Em (f a)) : Em (p >>= f) :=
  (Reads.bind h hf).mono (by rintro c b ⟨c1, c2, a, rfl, rfl, rfl⟩; rfl)

/-! ## automation -/

theorem inl_alt {p q : P α} (hp : InLine p) (hq : InLine q) : InLine (alt p q) := Reads.alt hp hq
theorem inl_alts_nil : InLine (alts ([] : List (P α))) := reads_fail _
theorem inl_alts_cons {p : P α} {l : List (P α)} (hp : InLine p) (hl : InLine (alts l)) : InLine (alts (p :: l)) :=
  Reads.alt hp hl
theorem inl_many1 {p : P α} (h : InLine p) : InLine (many1 p) := (reads_many1 h).mono (fun _ _ h => rounds_inLine h.2)
theorem inl_toeol : InLine toeol := reads_toeol.mono (fun _ _ h => h.2)
theorem inl_objName : InLine objName := inLine_pat (e := .star isNameChar) (by
  intro c h e; subst e; revert h; decide)
theorem inl_restOfLine : InLine restOfLine := inLine_pat (e := .plus (· != '\n')) (by
  simp [Re.plus, Re.Within])
theorem inl_sp : InLine sp := reads_sp.mono (by rintro c a rfl; decide)
theorem inl_chr {c : Char} (hc : c ≠ '\n') : InLine (chr c) := by
  intro t a r h
  unfold chr at h
  split at h
  · split at h
    · rename_i d r' e; cases h; exact ⟨[d], rfl, by rw [e]; simpa using fun e => hc e.symm⟩
    · cases h
  · cases h

/-- Proves that a rule stays in its line. -/
macro "inline" : tactic => `(tactic| repeat' first
  | with_reducible exact inLine_ws | with_reducible exact inLine_ip4 | with_reducible exact inLine_ip6 | with_reducible exact inLine_slashP | with_reducible exact inLine_intP | with_reducible exact inLine_identifier
  | with_reducible exact inLine_stringP | with_reducible exact inl_toeol | with_reducible exact inl_objName | with_reducible exact inl_restOfLine | with_reducible exact inl_sp
  | with_reducible exact inLine_pure _ | with_reducible exact inLine_act _ | with_reducible exact inLine_ahead _ | with_reducible exact inLine_port _ | with_reducible exact inLine_icmpType _
  | with_reducible exact inl_alts_nil | with_reducible assumption
  | (with_reducible apply inLine_oneOf; decide +kernel) | (with_reducible apply inLine_tok; decide +kernel) | (with_reducible apply inl_chr; decide)
  | with_reducible exact inLine_refer (by assumption)
  | with_reducible apply InLine.opt | with_reducible apply InLine.many | with_reducible apply inl_many1 | with_reducible apply inl_alt | with_reducible apply inl_alts_cons | with_reducible apply InLine.bind | apply InLine.bind
  | intro _)

/-- Proves that a rule reads to the end of its line. -/
macro "oneline" : tactic => `(tactic| repeat' first
  | with_reducible exact OL.nl
  | with_reducible exact Em.pure _ | with_reducible exact Em.act _
  | with_reducible exact OL.alts_nil
  | (with_reducible apply OL.nlBind)
  | (with_reducible refine OL.bind (by inline; done) ?_)
  | (refine OL.bind (by inline; done) ?_)
  | with_reducible apply OL.alts_cons
  | with_reducible apply Em.bind
  | intro _)

end Acltk.FwsmText
