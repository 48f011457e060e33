import Verif.Lemmas.Dos
/-!
# Patterns on a text and its DOS version
-/
namespace Acltk.Dos
open Acltk Acltk.Lookup Acltk.Peg

variable {ks : List String}

/-- A pattern that matches no line end. -/
def NoEol : Re → Prop
  | .empty => True
  | .cls p => p '\n' = false ∧ p '\r' = false
  | .seq a b => NoEol a ∧ NoEol b
  | .alt a b => NoEol a ∧ NoEol b
  | .star p => p '\n' = false ∧ p '\r' = false

/-- The same text without line ends was taken on both sides. -/
def Took (ks : List String) (t t' x x' : Text) : Prop :=
  Rel ks x x' ∧ ∃ pre, t = pre ++ x ∧ t' = pre ++ x' ∧ Plain pre

theorem Took.refl {t t' : Text} (h : Rel ks t t') : Took ks t t' t t' := ⟨h, [], rfl, rfl, by decide⟩

theorem Took.trans {t t' x x' y y' : Text} (h : Took ks t t' x x') (k : Took ks x x' y y') : Took ks t t' y y' := by
  obtain ⟨-, a, rfl, rfl, ha⟩ := h
  obtain ⟨hy, b, rfl, rfl, hb⟩ := k
  refine ⟨hy, a ++ b, by simp, by simp, ?_⟩
  simp only [Plain, List.mem_append, not_or] at *
  exact ⟨⟨ha.1, hb.1⟩, ha.2, hb.2⟩

theorem All2.append {α β : Type} {R : α → β → Prop} {l l' m m'} (h : All2 R l m) (k : All2 R l' m') : All2 R (l ++ l') (m ++ m') := by
  induction h with
  | nil => exact k
  | cons a _ ih => exact .cons a ih

theorem All2.mono {α β : Type} {R S : α → β → Prop} (hR : ∀ a b, R a b → S a b) {l m} (h : All2 R l m) : All2 S l m := by
  induction h with
  | nil => exact .nil
  | cons a _ ih => exact .cons (hR _ _ a) ih

theorem All2.flatMap {α β γ δ : Type} {R : α → β → Prop} {S : γ → δ → Prop} {f : α → List γ} {f' : β → List δ}
    {l m} (h : All2 R l m) (hf : ∀ a b, R a b → All2 S (f a) (f' b)) : All2 S (l.flatMap f) (m.flatMap f') := by
  induction h with
  | nil => exact .nil
  | cons a _ ih => exact (hf _ _ a).append ih

theorem starRests_took {p : Char → Bool} (hp : p '\n' = false ∧ p '\r' = false) : ∀ {t t' : Text}, Rel ks t t' →
    All2 (Took ks t t') (starRests p t) (starRests p t') := by
  intro t
  induction t with
  | nil =>
    intro t' h
    rcases h.cases_on with ⟨-, rfl⟩ | ⟨x, x', h, -⟩ | ⟨c, x, x', -, -, h, -⟩
    · exact .cons (Took.refl h) .nil
    · cases h
    · cases h
  | cons c t ih =>
    intro t' h
    rcases h.cases_on with ⟨h', -⟩ | ⟨x, x', h', hx', rfl | rfl⟩ | ⟨d, x, x', h1, h2, h', rfl, hx⟩
    · cases h'
    · cases h'; simp only [starRests, hp.1, hp.2]; exact .cons (Took.refl h) .nil
    · cases h'; simp only [starRests, hp.1]; exact .cons (Took.refl h) .nil
    · cases h'
      simp only [starRests]
      split
      · refine All2.append ((ih hx).mono ?_) (.cons (Took.refl h) .nil)
        intro a b hab
        refine Took.trans ⟨hx, [c], rfl, rfl, ?_⟩ hab
        simp [Plain, Ne.symm h1, Ne.symm h2]
      · exact .cons (Took.refl h) .nil

theorem run_took : ∀ {r : Re}, NoEol r → ∀ {t t' : Text}, Rel ks t t' → All2 (Took ks t t') (r.run t) (r.run t')
  | .empty, _, t, t', h => .cons (Took.refl h) .nil
  | .cls p, hp, t, t', h => by
    simp only [NoEol] at hp
    rcases h.cases_on with ⟨rfl, rfl⟩ | ⟨x, x', rfl, hx', rfl | rfl⟩ | ⟨d, x, x', h1, h2, rfl, rfl, hx⟩
    · exact .nil
    · simp only [Re.run, hp.1, hp.2]; exact .nil
    · simp only [Re.run, hp.1]; exact .nil
    · simp only [Re.run]
      split
      · exact .cons ⟨hx, [d], rfl, rfl, by simp [Plain, Ne.symm h1, Ne.symm h2]⟩ .nil
      · exact .nil
  | .seq a b, hp, t, t', h => by
    simp only [Re.run]
    exact (run_took hp.1 h).flatMap (fun x x' hx => (run_took hp.2 hx.1).mono (fun y y' hy => hx.trans hy))
  | .alt a b, hp, t, t', h => (run_took hp.1 h).append (run_took hp.2 h)
  | .star p, hp, t, t', h => starRests_took hp h

/-- The same value, without line ends. -/
def Word (v v' : List Char) : Prop := v = v' ∧ Plain v

theorem pat_took {r : Re} (hr : NoEol r) {t t' : Text} (h : Rel ks t t') :
    (pat r t = .fail ∧ pat r t' = .fail) ∨
      ∃ pre x x', pat r t = .ok pre x ∧ pat r t' = .ok pre x' ∧ Rel ks x x' ∧ t = pre ++ x ∧ t' = pre ++ x' ∧ Plain pre := by
  have := run_took hr h
  unfold pat
  revert this
  generalize r.run t = l; generalize r.run t' = m
  intro hlm
  cases hlm with
  | nil => exact .inl ⟨rfl, rfl⟩
  | cons a _ =>
    obtain ⟨hx, pre, rfl, rfl, hp⟩ := a
    exact .inr ⟨pre, _, _, by simp, by simp, hx, rfl, rfl, hp⟩

theorem Sim.patWord {r : Re} (hr : NoEol r) : Sim ks .even Word (pat r) (pat r) := by
  intro t t' h
  rcases pat_took hr h with ⟨h1, h2⟩ | ⟨pre, x, x', h1, h2, h3, rfl, rfl, h4⟩
  · rw [h1, h2]; exact .fail
  · rw [h1, h2]
    refine .ok ⟨rfl, h4⟩ h3 ?_ ?_ ?_ <;> simp only [Moves, List.length_append] <;> omega

/-- A pattern that matches no empty text. -/
def NonEmpty : Re → Bool
  | .empty => false
  | .cls _ => true
  | .seq a b => NonEmpty a || NonEmpty b
  | .alt a b => NonEmpty a && NonEmpty b
  | .star _ => false

theorem starRests_le {p : Char → Bool} : ∀ {t x : Text}, x ∈ starRests p t → x.length ≤ t.length
  | [], x, h => by simp [starRests] at h; simp [h]
  | c :: t, x, h => by
    simp only [starRests] at h
    split at h
    · rcases List.mem_append.1 h with h | h
      · have := starRests_le h; simp; omega
      · simp at h; simp [h]
    · simp at h; simp [h]

theorem run_le : ∀ {r : Re} {t x : Text}, x ∈ r.run t → x.length ≤ t.length ∧ (NonEmpty r = true → x.length < t.length)
  | .empty, t, x, h => by simp [Re.run] at h; simp [h, NonEmpty]
  | .cls p, [], x, h => by simp [Re.run] at h
  | .cls p, c :: t, x, h => by
    simp only [Re.run] at h
    split at h <;> simp at h
    subst h; simp
  | .seq a b, t, x, h => by
    simp only [Re.run, List.mem_flatMap] at h
    obtain ⟨y, hy, hx⟩ := h
    obtain ⟨h1, h2⟩ := run_le hy
    obtain ⟨h3, h4⟩ := run_le hx
    refine ⟨by omega, fun h => ?_⟩
    simp only [NonEmpty, Bool.or_eq_true] at h
    rcases h with h | h
    · have := h2 h; omega
    · have := h4 h; omega
  | .alt a b, t, x, h => by
    simp only [Re.run, List.mem_append] at h
    refine ⟨?_, fun hn => ?_⟩
    · rcases h with h | h <;> exact (run_le h).1
    · simp only [NonEmpty, Bool.and_eq_true] at hn
      rcases h with h | h
      · exact (run_le h).2 hn.1
      · exact (run_le h).2 hn.2
  | .star p, t, x, h => ⟨starRests_le h, by simp [NonEmpty]⟩

theorem pat_lt {r : Re} (hr : NonEmpty r = true) {t v x : Text} (h : pat r t = .ok v x) : x.length < t.length := by
  unfold pat at h
  split at h
  · cases h
  · rename_i rest l hl
    cases h
    exact (run_le (hl ▸ List.mem_cons_self)).2 hr

theorem Sim.patWordS {r : Re} (hr : NoEol r) (hn : NonEmpty r = true) : Sim ks .strict Word (pat r) (pat r) := by
  intro t t' h
  rcases pat_took hr h with ⟨h1, h2⟩ | ⟨pre, x, x', h1, h2, h3, rfl, rfl, h4⟩
  · rw [h1, h2]; exact .fail
  · have a := pat_lt hn h1
    have b := pat_lt hn h2
    rw [h1, h2]
    refine .ok ⟨rfl, h4⟩ h3 ?_ ?_ ⟨a, b⟩ <;> simp only [List.length_append] <;> omega

theorem Word.eq {v v' : List Char} (h : Word v v') : v = v' := h.1

theorem noEol_rng {a b : Char} (h : (decide (a ≤ '\n') && decide ('\n' ≤ b)) = false) (h' : (decide (a ≤ '\r') && decide ('\r' ≤ b)) = false) :
    NoEol (.rng a b) := ⟨h, h'⟩

theorem Sim.ws : Sim ks .strict Eq ws ws :=
  Sim.bindS (Sim.patWordS (by simp only [Re.plus, NoEol]; decide) rfl) (fun _ _ _ => (Sim.pure rfl).toAny)

theorem Sim.objName : Sim ks .even Word objName objName := Sim.patWord (by simp only [NoEol]; decide)

theorem Sim.identifier : Sim ks .strict Word identifier identifier := Sim.patWordS (by simp only [NoEol]; decide) rfl

theorem Sim.intP : Sim ks .strict Word intP intP := Sim.patWordS (by simp only [Re.plus, NoEol]; decide) rfl

theorem Sim.stringP : Sim ks .strict Word stringP stringP := Sim.patWordS (by simp only [Re.plus, NoEol]; decide) rfl

theorem noEol_octet : NoEol octetRe := by
  simp only [octetRe, Re.optional, Re.chr, Re.rng, NoEol]; decide

theorem Sim.ip4 : Sim ks .strict Eq AclText.ip4 AclText.ip4 := by
  refine Sim.bindS (Sim.patWordS ?_ rfl) (fun v v' h => ?_)
  · simp only [ip4Re, NoEol, noEol_octet, Re.chr]; decide
  · rw [h.eq]; exact Sim.actEq.toAny

theorem Sim.ip6 : Sim ks .strict Eq AclText.ip6 AclText.ip6 := by
  refine Sim.bindS (Sim.patWordS ?_ rfl) (fun v v' h => ?_)
  · simp only [ip6Re, NoEol, Re.chr, Re.plus]; decide
  · rw [h.eq]; exact Sim.actEq.toAny

/-! ## references -/

/-- All names of a table are free of line ends. -/
def NamesOk {β : Type} (d : Dict String β) : Prop := ∀ n ∈ AclText.keys d, Plain n.toList

theorem findSome_token {g : Guard} (hg : NextChar g) {t t' : Text} (h : Rel ks t t') : ∀ {l : List String}, (∀ n ∈ l, Plain n.toList ) →
    (l.findSome? (token g t) = none ∧ l.findSome? (token g t') = none) ∨
      ∃ n r r', n ∈ l ∧ l.findSome? (token g t) = some (n, r) ∧ l.findSome? (token g t') = some (n, r') ∧ Rel ks r r' ∧
        t = n.toList ++ r ∧ t' = n.toList ++ r'
  | [], _ => .inl ⟨rfl, rfl⟩
  | n :: l, hl => by
    simp only [List.findSome?_cons]
    rcases token_rel hg (hl n (by simp)) h with ⟨h1, h2⟩ | ⟨r, r', h1, h2, h3, h4, h5⟩
    · rw [h1, h2]
      rcases findSome_token hg h (l := l) (fun x hx => hl x (by simp [hx])) with h | ⟨m, r, r', hm, h⟩
      · exact .inl h
      · exact .inr ⟨m, r, r', by simp [hm], h⟩
    · rw [h1, h2]; exact .inr ⟨n, r, r', by simp, rfl, rfl, h3, h4, h5⟩

theorem internalIds_rel {g : Guard} (hg : NextChar g) {names : List String} (hn : ∀ n ∈ names, Plain n.toList) {t t' : Text} (h : Rel ks t t') :
    (internalIds g names t = none ∧ internalIds g names t' = none) ∨
      ∃ n r r', n ∈ names ∧ internalIds g names t = some (n, r) ∧ internalIds g names t' = some (n, r') ∧ Rel ks r r' ∧
        t = n.toList ++ r ∧ t' = n.toList ++ r' := by
  have hl : ∀ n ∈ descending names, Plain n.toList := fun n h => hn n (by simpa [descending] using h)
  rcases findSome_token hg h (l := descending names) hl with h | ⟨n, r, r', h0, h1, h2, h3, h4, h5⟩
  · exact .inl h
  · exact .inr ⟨n, r, r', by simpa [descending] using h0, h1, h2, h3, h4, h5⟩

/-- A terminator that does not tell line ends apart. -/
def TermOk (ks : List String) (term : Text → Bool) : Prop := ∀ t t', Rel ks t t' → term t = term t'

theorem termWs : TermOk ks wsOrNl := fun _ _ h => wsOrNl_eq h
theorem termSlash : TermOk ks slash := fun _ _ h => slash_eq h

theorem Sim.refer {β : Type} {g : Guard} (hg : NextChar g) {term : Text → Bool} (ht : TermOk ks term) {d : Dict String β} (hd : NamesOk d) :
    Sim ks .even Eq (AclText.refer g term d) (AclText.refer g term d) := by
  intro t t' h
  unfold AclText.refer reference
  rcases internalIds_rel hg hd h with ⟨h1, h2⟩ | ⟨n, r, r', h0, h1, h2, h3, h4, h5⟩
  · rw [h1, h2]; exact .fail
  · rw [h1, h2]
    simp only
    rw [ht r r' h3]
    cases term r' with
    | false => exact .fail
    | true =>
      simp only [if_true]
      cases dGet d n with
      | none => exact .raise _
      | some v =>
        have e1 := congrArg List.length h4
        have e2 := congrArg List.length h5
        simp only [List.length_append] at e1 e2
        exact .ok rfl h3 (by omega) (by omega) (by simp only [Moves]; omega)

/-! ## the rest of a line -/

theorem Cr.refl (v : List Char) : Cr v v := .inl rfl

theorem Cr.cons {v v' : List Char} (c : Char) (h : Cr v v') : Cr (c :: v) (c :: v') := by
  rcases h with rfl | rfl
  · exact .inl rfl
  · exact .inr rfl

theorem starRests_head {p : Char → Bool} : ∀ t : Text, ∃ l, starRests p t = t.dropWhile p :: l
  | [] => ⟨[], rfl⟩
  | c :: t => by
    simp only [starRests, List.dropWhile]
    cases hp : p c with
    | false => exact ⟨[], by simp⟩
    | true =>
      obtain ⟨l, hl⟩ := starRests_head (p := p) t
      exact ⟨l ++ [c :: t], by simp [hl]⟩

theorem pat_star (p : Char → Bool) (t : Text) : pat (.star p) t = .ok (t.takeWhile p) (t.dropWhile p) := by
  unfold pat
  obtain ⟨l, hl⟩ := starRests_head (p := p) t
  simp only [Re.run, hl]
  congr 1
  have h := List.takeWhile_append_dropWhile (p := p) (l := t)
  have hlen : t.length - (t.dropWhile p).length = (t.takeWhile p).length := by
    have := congrArg List.length h
    rw [List.length_append] at this; omega
  rw [hlen]
  have e : ∀ a b : Text, a ++ b = t → t.take a.length = a := by rintro a b rfl; simp
  exact e _ _ h

/-- Everything up to a line end, or up to a character that is not taken. -/
theorem star_rel {p : Char → Bool} (h1 : p '\n' = false) (h2 : p '\r' = true) : ∀ {t t' : Text}, Rel ks t t' →
    Cr (t.takeWhile p) (t'.takeWhile p) ∧ Rel ks (t.dropWhile p) (t'.dropWhile p) := by
  intro t
  induction t with
  | nil =>
    intro t' h
    rcases h.cases_on with ⟨-, rfl⟩ | ⟨x, x', h', -⟩ | ⟨c, x, x', -, -, h', -⟩
    · exact ⟨Cr.refl _, h⟩
    · cases h'
    · cases h'
  | cons c t ih =>
    intro t' h
    rcases h.cases_on with ⟨h', -⟩ | ⟨x, x', h', hx', rfl | rfl⟩ | ⟨d, x, x', h3, h4, h', rfl, hx⟩
    · cases h'
    · cases h'
      simp only [List.takeWhile, List.dropWhile, h1, h2]
      exact ⟨.inr rfl, h.good, .unix hx'.ends⟩
    · cases h'
      simp only [List.takeWhile, List.dropWhile, h1]
      exact ⟨.inl rfl, h⟩
    · cases h'
      simp only [List.takeWhile, List.dropWhile]
      cases hp : p c with
      | false => exact ⟨.inl rfl, h⟩
      | true => exact ⟨(ih hx).1.cons c, (ih hx).2⟩

theorem dropWhile_le (p : Char → Bool) (t : Text) : (t.dropWhile p).length ≤ t.length := by
  induction t with
  | nil => simp
  | cons c t ih =>
    simp only [List.dropWhile]
    split
    · simp; omega
    · simp

theorem Sim.star {p : Char → Bool} (h1 : p '\n' = false) (h2 : p '\r' = true) : Sim ks .any Cr (pat (.star p)) (pat (.star p)) := by
  intro t t' h
  rw [pat_star, pat_star]
  obtain ⟨a, b⟩ := star_rel h1 h2 h
  exact .ok a b (dropWhile_le _ _) (dropWhile_le _ _) trivial

theorem Sim.toeol : Sim ks .any Cr toeol toeol := Sim.star (by decide) (by decide)

/-- A pattern that begins with a character. -/
theorem pat_seq_cls (p : Char → Bool) (b : Re) : pat (.seq (.cls p) b) = (do
    let x ← pat (.cls p)
    let y ← pat b
    pure (x ++ y)) := by
  funext t
  show _ = P.bind (pat (.cls p)) _ t
  unfold P.bind
  cases t with
  | nil => simp [pat, Re.run]
  | cons c t =>
    cases hp : p c with
    | false => simp [pat, Re.run, hp]
    | true =>
      simp only [pat, Re.run, hp, if_true, List.flatMap_cons, List.flatMap_nil, List.append_nil]
      show _ = P.bind (pat b) _ t
      unfold P.bind pat
      cases hb : b.run t with
      | nil => simp
      | cons x l =>
        have hx : x.length ≤ t.length := (run_le (hb ▸ List.mem_cons_self)).1
        simp only [Pure.pure, List.length_cons]
        congr 1
        have e1 : t.length + 1 - x.length = (t.length - x.length) + 1 := by omega
        have e2 : t.length + 1 - t.length = 1 := by omega
        rw [e1, e2]; simp

/-- A fixed beginning and the rest of the line. -/
theorem Sim.patLine {c : Char} (h1 : c ≠ '\n') (h2 : c ≠ '\r') {M : Mode} {b : Re} (h : Sim ks M Cr (pat b) (pat b)) :
    Sim ks .strict Cr (pat (.seq (.chr c) b)) (pat (.seq (.chr c) b)) := by
  unfold Re.chr
  rw [pat_seq_cls]
  refine Sim.bindS (Sim.patWordS ?_ rfl) (fun v v' hv => ?_)
  · simp [NoEol, Ne.symm h1, Ne.symm h2]
  · refine Sim.bindA h (fun y y' hy => (Sim.pure ?_).toAny)
    rw [hv.eq]
    rcases hy with rfl | rfl
    · exact .inl rfl
    · exact .inr (by simp)

/-- The rest of a line, where it is not empty. -/
theorem restOfLine_rel {t t' : Text} (h : Rel ks t t') (hn : ∀ r, t ≠ '\n' :: r) :
    SimR ks .strict Cr t t' (FwsmText.restOfLine t) (FwsmText.restOfLine t') := by
  unfold FwsmText.restOfLine Re.plus
  rw [pat_seq_cls]
  rcases h.cases_on with ⟨rfl, rfl⟩ | ⟨x, x', rfl, -⟩ | ⟨d, x, x', h3, h4, rfl, rfl, hx⟩
  · exact .fail
  · exact absurd rfl (hn x)
  · have e : ∀ y : Text, pat (.cls (· != '\n')) (d :: y) = .ok [d] y := by
      intro y; simp [pat, Re.run, h3]
    show SimR ks .strict Cr _ _ (P.bind (pat (.cls (· != '\n'))) _ (d :: x)) (P.bind (pat (.cls (· != '\n'))) _ (d :: x'))
    unfold P.bind
    rw [e, e]
    simp only
    have hs : Sim ks .any Cr (pat (.star (· != '\n'))) (pat (.star (· != '\n'))) := Sim.toeol
    have := (Sim.bindA hs (S := Cr) (f := fun y => Pure.pure ([d] ++ y)) (f' := fun y => Pure.pure ([d] ++ y))
      (fun y y' hy => (Sim.pure (hy.cons d)).toAny)) x (x') hx
    show SimR ks .strict Cr (d :: x) (d :: x') ((pat (.star (· != '\n')) >>= fun y => Pure.pure ([d] ++ y)) x)
      ((pat (.star (· != '\n')) >>= fun y => Pure.pure ([d] ++ y)) (x'))
    revert this
    generalize ((pat (.star (· != '\n')) >>= fun y => Pure.pure ([d] ++ y)) x : Res (List Char)) = u
    generalize ((pat (.star (· != '\n')) >>= fun y => Pure.pure ([d] ++ y)) (x') : Res (List Char)) = w
    intro h
    cases h with
    | fail => exact .fail
    | raise e => exact .raise e
    | ok a b c d' e => exact .ok a b (by simp; omega) (by simp; omega) ⟨by simp; omega, by simp; omega⟩

end Acltk.Dos
