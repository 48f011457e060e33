import Verif.Lemmas.AclRule
/-!
# What an accepted text looks like

Inversion of the parsing primitives: from the success of a rule to the text it has read.
-/
namespace Acltk.Peg
open Acltk Acltk.Lookup

variable {α β : Type}

/-- Whatever the rule accepts, the text it has read and the value are related by `Q`. -/
def Reads (p : P α) (Q : Text → α → Prop) : Prop := ∀ t a r, p t = .ok a r → ∃ c, t = c ++ r ∧ Q c a

/-- The rule never reads a line feed. -/
def InLine (p : P α) : Prop := Reads p (fun c _ => '\n' ∉ c)

theorem bind_inv {p : P α} {f : α → P β} {t r : Text} {b : β} (h : (p >>= f) t = .ok b r) :
    ∃ a s, p t = .ok a s ∧ f a s = .ok b r := by
  rw [bind_apply] at h
  generalize hp : p t = v at h
  cases v with
  | ok a s => exact ⟨a, s, rfl, h⟩
  | fail => cases h
  | raise e => cases h

theorem alt_inv {p q : P α} {t r : Text} {a : α} (h : alt p q t = .ok a r) : p t = .ok a r ∨ q t = .ok a r := by
  unfold alt at h
  generalize hp : p t = v at h
  cases v with
  | ok a s => exact Or.inl h
  | fail => exact Or.inr h
  | raise e => cases h

theorem Reads.mono {p : P α} {Q R : Text → α → Prop} (h : Reads p Q) (hi : ∀ c a, Q c a → R c a) : Reads p R := by
  intro t a r hp
  obtain ⟨c, h1, h2⟩ := h t a r hp
  exact ⟨c, h1, hi _ _ h2⟩

theorem Reads.bind {p : P α} {f : α → P β} {Q : Text → α → Prop} {R : α → Text → β → Prop} (h : Reads p Q)
    (hf : ∀ a, Reads (f a) (R a)) : Reads (p >>= f) (fun c b => ∃ c1 c2 a, c = c1 ++ c2 ∧ Q c1 a ∧ R a c2 b) := by
  intro t b r hb
  obtain ⟨a, s, h1, h2⟩ := bind_inv hb
  obtain ⟨c1, rfl, q⟩ := h _ _ _ h1
  obtain ⟨c2, rfl, q2⟩ := hf a _ _ _ h2
  exact ⟨c1 ++ c2, by simp, c1, c2, a, rfl, q, q2⟩

theorem reads_pure (a : α) : Reads (pure a : P α) (fun c b => c = [] ∧ b = a) := by
  intro t b r h
  cases h
  exact ⟨[], rfl, rfl, rfl⟩

theorem Reads.alt {p q : P α} {Q : Text → α → Prop} (hp : Reads p Q) (hq : Reads q Q) : Reads (alt p q) Q := by
  intro t a r h
  rcases alt_inv h with h | h
  · exact hp _ _ _ h
  · exact hq _ _ _ h

theorem reads_fail (Q : Text → α → Prop) : Reads (failP : P α) Q := by
  intro t a r h; cases h

theorem reads_alts {l : List (P α)} {Q : Text → α → Prop} (h : ∀ p ∈ l, Reads p Q) : Reads (alts l) Q := by
  induction l with
  | nil => exact reads_fail Q
  | cons p l ih => exact Reads.alt (h p (by simp)) (ih (fun q hq => h q (by simp [hq])))

theorem InLine.bind {p : P α} {f : α → P β} (h : InLine p) (hf : ∀ a, InLine (f a)) : InLine (p >>= f) :=
  (Reads.bind h hf).mono (by
    rintro c b ⟨c1, c2, a, rfl, h1, h2⟩
    simp [h1, h2])

theorem inLine_pure (a : α) : InLine (pure a : P α) := (reads_pure a).mono (by rintro c b ⟨rfl, -⟩; simp)

theorem inLine_alts {l : List (P α)} (h : ∀ p ∈ l, InLine p) : InLine (alts l) := reads_alts h

theorem InLine.opt {p : P α} (h : InLine p) : InLine (opt p) := by
  intro t a r ho
  unfold Peg.opt at ho
  generalize hp : p t = v at ho
  cases v with
  | ok b s =>
    cases ho
    exact h _ _ _ hp
  | fail => cases ho; exact ⟨[], rfl, by simp⟩
  | raise e => cases ho

theorem inLine_ahead (p : P α) : InLine (ahead p) := by
  intro t a r ho
  unfold ahead at ho
  generalize hp : p t = v at ho
  cases v with
  | ok b s => cases ho; exact ⟨[], rfl, by simp⟩
  | fail => cases ho
  | raise e => cases ho

theorem reads_act (x : Py α) : Reads (act x) (fun c a => c = [] ∧ x = .ok a) := by
  intro t a r h
  unfold act at h
  cases x with
  | ok b => cases h; exact ⟨[], rfl, rfl, rfl⟩
  | error e => cases h

theorem inLine_act (x : Py α) : InLine (act x) := (reads_act x).mono (by rintro c b ⟨rfl, -⟩; simp)

/-- The rounds of a closure. -/
inductive Rounds (Q : Text → α → Prop) : Text → List α → Prop
  | nil : Rounds Q [] []
  | cons (c d : Text) (a : α) (l : List α) : Q c a → Rounds Q d l → Rounds Q (c ++ d) (a :: l)

theorem reads_many {p : P α} {Q : Text → α → Prop} (h : Reads p Q) : Reads (many p) (Rounds Q) := by
  intro t
  generalize hn : t.length = n
  induction n using Nat.strongRecOn generalizing t with
  | _ n ih =>
    intro a r hm
    rw [many] at hm
    generalize hp : p t = v at hm
    cases v with
    | fail => cases hm; exact ⟨[], rfl, .nil⟩
    | raise e => cases hm
    | ok b s =>
      simp only at hm
      split at hm
      · rename_i hl
        generalize hq : many p s = w at hm
        cases w with
        | fail => cases hm
        | raise e => cases hm
        | ok l u =>
          cases hm
          obtain ⟨c, rfl, q⟩ := h _ _ _ hp
          obtain ⟨d, rfl, q2⟩ := ih s.length (by omega) s rfl _ _ hq
          exact ⟨c ++ d, by simp, .cons _ _ _ _ q q2⟩
      · cases hm; exact ⟨[], rfl, .nil⟩

theorem reads_many1 {p : P α} {Q : Text → α → Prop} (h : Reads p Q) :
    Reads (many1 p) (fun c l => l ≠ [] ∧ Rounds Q c l) := by
  intro t a r hm
  unfold many1 at hm
  generalize hp : p t = v at hm
  cases v with
  | fail => cases hm
  | raise e => cases hm
  | ok b s =>
    simp only at hm
    generalize hq : many p s = w at hm
    cases w with
    | fail => cases hm
    | raise e => cases hm
    | ok l u =>
      cases hm
      obtain ⟨c, rfl, q⟩ := h _ _ _ hp
      obtain ⟨d, rfl, q2⟩ := reads_many h _ _ _ hq
      exact ⟨c ++ d, by simp, by simp, .cons _ _ _ _ q q2⟩

theorem rounds_inLine {c : Text} {l : List α} (h : Rounds (fun c (_ : α) => '\n' ∉ c) c l) : '\n' ∉ c := by
  induction h with
  | nil => simp
  | cons c d a l h1 _ ih => simp [h1, ih]

theorem InLine.many {p : P α} (h : InLine p) : InLine (many p) := (reads_many h).mono (fun _ _ => rounds_inLine)

theorem token_inv {g : Guard} {t r : Text} {s n : String} (h : token g t s = some (n, r)) : n = s ∧ t = s.toList ++ r := by
  unfold token at h
  split at h
  · rename_i hp
    simp only at h
    split at h
    · simp only [Option.some.injEq, Prod.mk.injEq] at h
      obtain ⟨rfl, rfl⟩ := h
      refine ⟨rfl, ?_⟩
      obtain ⟨u, hu⟩ := List.isPrefixOf_iff_prefix.1 hp
      rw [← hu]; simp
    · cases h
  · cases h

theorem reads_tok (g : Guard) (s : String) : Reads (tok g s) (fun c a => a = s ∧ c = s.toList) := by
  intro t a r h
  unfold tok at h
  generalize ht : token g t s = v at h
  cases v with
  | none => cases h
  | some x =>
    obtain ⟨n, u⟩ := x
    cases h
    obtain ⟨rfl, rfl⟩ := token_inv ht
    exact ⟨_, rfl, rfl, rfl⟩

theorem reads_oneOf (g : Guard) (l : List String) : Reads (oneOf g l) (fun c a => a ∈ l ∧ c = a.toList) := by
  induction l with
  | nil => exact reads_fail _
  | cons s l ih =>
    apply Reads.alt
    · exact (reads_tok g s).mono (by rintro c a ⟨rfl, rfl⟩; simp)
    · exact ih.mono (by rintro c a ⟨h1, rfl⟩; simp [h1])

/-- A predicate on the characters a regular expression can match. -/
def Re.Within (P : Char → Prop) : Re → Prop
  | .empty => True
  | .cls p => ∀ c, p c = true → P c
  | .seq a b => a.Within P ∧ b.Within P
  | .alt a b => a.Within P ∧ b.Within P
  | .star p => ∀ c, p c = true → P c

theorem starRests_inv {q : Char → Bool} {t s : Text} (h : s ∈ starRests q t) : ∃ c, t = c ++ s ∧ ∀ x ∈ c, q x = true := by
  induction t with
  | nil => simp [starRests] at h; subst h; exact ⟨[], rfl, by simp⟩
  | cons x t ih =>
    simp only [starRests] at h
    split at h
    · rename_i hx
      simp only [List.mem_append, List.mem_singleton] at h
      rcases h with h | rfl
      · obtain ⟨c, rfl, hc⟩ := ih h
        exact ⟨x :: c, rfl, by simpa using ⟨hx, hc⟩⟩
      · exact ⟨[], rfl, by simp⟩
    · simp at h; subst h; exact ⟨[], rfl, by simp⟩

theorem Re.run_inv {P : Char → Prop} {e : Re} (he : e.Within P) {t s : Text} (h : s ∈ e.run t) :
    ∃ c, t = c ++ s ∧ ∀ x ∈ c, P x := by
  induction e generalizing t s with
  | empty => simp [Re.run] at h; subst h; exact ⟨[], rfl, by simp⟩
  | cls p =>
    cases t with
    | nil => simp [Re.run] at h
    | cons x t =>
      simp only [Re.run] at h
      split at h
      · simp at h; subst h; exact ⟨[x], rfl, by simpa using he x ‹_›⟩
      · simp at h
  | seq a b iha ihb =>
    simp only [Re.run, List.mem_flatMap] at h
    obtain ⟨u, h1, h2⟩ := h
    obtain ⟨c, rfl, hc⟩ := iha he.1 h1
    obtain ⟨d, rfl, hd⟩ := ihb he.2 h2
    exact ⟨c ++ d, by simp, by
      intro x hx
      rcases List.mem_append.1 hx with h | h
      · exact hc x h
      · exact hd x h⟩
  | alt a b iha ihb =>
    simp only [Re.run, List.mem_append] at h
    rcases h with h | h
    · exact iha he.1 h
    · exact ihb he.2 h
  | star p =>
    obtain ⟨c, h1, h2⟩ := starRests_inv h
    exact ⟨c, h1, fun x hx => he x (h2 x hx)⟩

theorem reads_pat {P : Char → Prop} {e : Re} (he : e.Within P) : Reads (pat e) (fun c a => a = c ∧ ∀ x ∈ c, P x) := by
  intro t a r h
  unfold pat at h
  generalize hr : e.run t = l at h
  cases l with
  | nil => cases h
  | cons s l =>
    cases h
    obtain ⟨c, rfl, hc⟩ := Re.run_inv he (hr ▸ List.mem_cons_self : r ∈ e.run t)
    exact ⟨c, rfl, by simp, hc⟩

theorem inLine_pat {e : Re} (he : e.Within (· ≠ '\n')) : InLine (pat e) :=
  (reads_pat he).mono (by
    rintro c a ⟨-, h⟩ hm
    exact h _ hm rfl)

theorem reads_ws : Reads ws (fun c _ => c ≠ [] ∧ ∀ x ∈ c, x = ' ' ∨ x = '\t') := by
  intro t a r h
  unfold ws at h
  obtain ⟨b, s, h1, h2⟩ := bind_inv h
  cases h2
  unfold pat Re.plus at h1
  generalize hr : (Re.seq (.cls isWs) (.star isWs)).run t = l at h1
  cases l with
  | nil => cases h1
  | cons u l =>
    cases h1
    have hm : r ∈ (Re.seq (.cls isWs) (.star isWs)).run t := hr ▸ List.mem_cons_self
    cases t with
    | nil => simp [Re.run] at hm
    | cons x t =>
      simp only [Re.run] at hm
      split at hm
      · rename_i hx
        simp at hm
        obtain ⟨c, rfl, hc⟩ := starRests_inv hm
        refine ⟨x :: c, rfl, by simp, ?_⟩
        intro y hy
        rcases List.mem_cons.1 hy with rfl | hy
        · simpa [isWs] using hx
        · simpa [isWs] using hc y hy
      · simp at hm

theorem inLine_ws : InLine ws := reads_ws.mono (by
  rintro c a ⟨-, h⟩ hm
  rcases h _ hm with h | h <;> exact absurd h (by decide))

theorem inLine_tok (g : Guard) {s : String} (hs : '\n' ∉ s.toList) : InLine (tok g s) :=
  (reads_tok g s).mono (by rintro c a ⟨-, rfl⟩; exact hs)

theorem inLine_oneOf (g : Guard) {l : List String} (hl : ∀ s ∈ l, '\n' ∉ s.toList) : InLine (oneOf g l) :=
  (reads_oneOf g l).mono (by rintro c a ⟨h, rfl⟩; exact hl a h)

theorem reads_nl : Reads nl (fun c _ => c = ['\n'] ∨ c = ['\r', '\n']) := by
  intro t a r h
  unfold nl at h
  split at h
  · cases h; exact ⟨_, rfl, Or.inl rfl⟩
  · cases h; exact ⟨['\r', '\n'], rfl, Or.inr rfl⟩
  · cases h

theorem reads_sp : Reads sp (fun c _ => c = [' ']) := by
  intro t a r h
  unfold sp at h
  split at h
  · cases h; exact ⟨_, rfl, rfl⟩
  · cases h

theorem reads_toeol : Reads toeol (fun c a => a = c ∧ '\n' ∉ c) :=
  (reads_pat (P := (· ≠ '\n')) (e := .star (· != '\n')) (by intro c h; simpa using h)).mono (by
    rintro c a ⟨rfl, h⟩
    exact ⟨rfl, fun hm => h _ hm rfl⟩)

theorem reads_objName : Reads objName (fun c a => a = c ∧ ∀ x ∈ c, isNameChar x = true) :=
  reads_pat (e := .star isNameChar) (fun _ h => h)

theorem reads_intP : Reads intP (fun c a => a = c ∧ ∀ x ∈ c, x.isDigit = true) :=
  reads_pat (e := .plus Char.isDigit) ⟨fun _ h => h, fun _ h => h⟩

end Acltk.Peg
