import Verif.Spec.DosSpec
/-!
# Reading a text and its DOS version side by side
-/
namespace Acltk.Dos
open Acltk Acltk.Lookup Acltk.Peg

/-- What is assumed of a text: no carriage return, and no line ends in one of the words `ks`. -/
structure Good (ks : List String) (t : Text) : Prop where
  noCr : '\r' ∉ t
  ends : ∀ k ∈ ks, NoLineEndsIn k t

theorem Good.suffix {ks : List String} {p t : Text} (h : Good ks (p ++ t)) : Good ks t where
  noCr := fun hm => h.noCr (List.mem_append_right _ hm)
  ends := fun k hk a b c e => h.ends k hk (p ++ a) b c (by rw [e]; simp)

theorem Good.tail {ks : List String} {c : Char} {t : Text} (h : Good ks (c :: t)) : Good ks t := Good.suffix (p := [c]) h

/-- Corresponding positions: what is left has the same lines. -/
structure Rel (ks : List String) (t t' : Text) : Prop where
  good : Good ks t
  ends : LineEnds t t'

variable {ks : List String}

theorem LineEnds.refl : ∀ t : Text, LineEnds t t
  | [] => .done
  | c :: t => by
    by_cases h : c = '\n'
    · subst h; exact .unix (LineEnds.refl t)
    · exact .char c h (LineEnds.refl t)

theorem LineEnds.all : ∀ t : Text, LineEnds t (Dos.dos t)
  | [] => .done
  | c :: t => by
    by_cases h : c = '\n'
    · subst h; simpa [Dos.dos] using LineEnds.dos (LineEnds.all t)
    · simpa [Dos.dos, h] using LineEnds.char c h (LineEnds.all t)

theorem LineEnds.append {t t' u u' : Text} (h : LineEnds t t') (k : LineEnds u u') : LineEnds (t ++ u) (t' ++ u') := by
  induction h with
  | done => exact k
  | char c hc _ ih => exact .char c hc ih
  | unix _ ih => exact .unix ih
  | dos _ ih => exact .dos ih

/-- Corresponding positions look alike. -/
theorem Rel.cases_on {t t' : Text} (h : Rel ks t t') :
    (t = [] ∧ t' = []) ∨ (∃ r r', t = '\n' :: r ∧ Rel ks r r' ∧ (t' = '\r' :: '\n' :: r' ∨ t' = '\n' :: r')) ∨
      ∃ c r r', c ≠ '\n' ∧ c ≠ '\r' ∧ t = c :: r ∧ t' = c :: r' ∧ Rel ks r r' := by
  obtain ⟨hg, h⟩ := h
  cases h with
  | done => exact .inl ⟨rfl, rfl⟩
  | char c hc h => exact .inr (.inr ⟨c, _, _, hc, fun e => hg.noCr (by simp [e]), rfl, rfl, hg.tail, h⟩)
  | unix h => exact .inr (.inl ⟨_, _, rfl, ⟨hg.tail, h⟩, .inr rfl⟩)
  | dos h => exact .inr (.inl ⟨_, _, rfl, ⟨hg.tail, h⟩, .inl rfl⟩)

/-- How far both sides move. -/
inductive Mode where
  | strict
  | even
  | any

/-- Both move, or one iff the other. -/
def Moves : Mode → Text → Text → Text → Text → Prop
  | .strict, t, r, t', r' => r.length < t.length ∧ r'.length < t'.length
  | .even, t, r, t', r' => r.length < t.length ↔ r'.length < t'.length
  | .any, _, _, _, _ => True

/-- Related outcomes. -/
inductive SimR (ks : List String) {α β : Type} (M : Mode) (R : α → β → Prop) (t t' : Text) : Res α → Res β → Prop
  | ok {v v' r r'} : R v v' → Rel ks r r' → r.length ≤ t.length → r'.length ≤ t'.length → Moves M t r t' r' →
      SimR ks M R t t' (.ok v r) (.ok v' r')
  | fail : SimR ks M R t t' .fail .fail
  | raise (e) : SimR ks M R t t' (.raise e) (.raise e)

/-- Two rules that give related outcomes at corresponding positions. -/
def Sim (ks : List String) {α β : Type} (M : Mode) (R : α → β → Prop) (p : P α) (p' : P β) : Prop :=
  ∀ t t', Rel ks t t' → SimR ks M R t t' (p t) (p' t')

section
variable {α β γ δ : Type} {R : α → β → Prop} {S : γ → δ → Prop} {p : P α} {p' : P β}

theorem SimR.mono {R' : α → β → Prop} (hR : ∀ v v', R v v' → R' v v') {M : Mode} {t t' : Text} {x : Res α} {y : Res β}
    (h : SimR ks M R t t' x y) : SimR ks M R' t t' x y := by
  cases h with
  | ok a b c d e => exact .ok (hR _ _ a) b c d e
  | fail => exact .fail
  | raise e => exact .raise e

theorem Sim.mono {R' : α → β → Prop} (hR : ∀ v v', R v v' → R' v v') {M : Mode} (h : Sim ks M R p p') : Sim ks M R' p p' :=
  fun t t' hr => (h t t' hr).mono hR

theorem SimR.toAny {M : Mode} {t t' : Text} {x : Res α} {y : Res β}
    (h : SimR ks M R t t' x y) : SimR ks .any R t t' x y := by
  cases h with
  | ok a b c d e => exact .ok a b c d trivial
  | fail => exact .fail
  | raise e => exact .raise e

theorem Sim.toAny {M : Mode} (h : Sim ks M R p p') : Sim ks .any R p p' := fun t t' hr => (h t t' hr).toAny

theorem Sim.toEven (h : Sim ks .strict R p p') : Sim ks .even R p p' := fun t t' hr => by
  have := h t t' hr
  revert this
  generalize p t = x; generalize p' t' = y
  intro h
  cases h with
  | ok a b c d e => exact .ok a b c d ⟨fun _ => e.2, fun _ => e.1⟩
  | fail => exact .fail
  | raise e => exact .raise e

/-- The composition of modes. -/
def Mode.comp : Mode → Mode → Mode
  | .strict, _ => .strict
  | _, .strict => .strict
  | .even, .even => .even
  | _, _ => .any

theorem Moves.comp {M N : Mode} {t r s t' r' s' : Text} (h1 : Moves M t r t' r') (h2 : Moves N r s r' s')
    (a : r.length ≤ t.length) (b : s.length ≤ r.length) (a' : r'.length ≤ t'.length) (b' : s'.length ≤ r'.length) :
    Moves (M.comp N) t s t' s' := by
  cases M <;> cases N <;> simp only [Moves, Mode.comp] at * <;> omega

theorem Sim.bind {M N : Mode} {f : α → P γ} {f' : β → P δ} (h : Sim ks M R p p') (hf : ∀ v v', R v v' → Sim ks N S (f v) (f' v')) :
    Sim ks (M.comp N) S (p >>= f) (p' >>= f') := by
  intro t t' hr
  have h1 := h t t' hr
  show SimR ks _ S t t' (P.bind p f t) (P.bind p' f' t')
  unfold P.bind
  revert h1
  generalize p t = x; generalize p' t' = y
  intro h1
  cases h1 with
  | fail => exact .fail
  | raise e => exact .raise e
  | @ok v v' r r' hv hrel l l' mv =>
    have h2 := hf v v' hv r r' hrel
    show SimR ks _ S t t' (f v r) (f' v' r')
    revert h2
    generalize f v r = x; generalize f' v' r' = y
    intro h2
    cases h2 with
    | fail => exact .fail
    | raise e => exact .raise e
    | ok a b c d e => exact .ok a b (by omega) (by omega) (mv.comp e l c l' d)

theorem Sim.bindA {M : Mode} {f : α → P γ} {f' : β → P δ} (h : Sim ks M R p p') (hf : ∀ v v', R v v' → Sim ks .any S (f v) (f' v')) :
    Sim ks .any S (p >>= f) (p' >>= f') := (Sim.bind h hf).toAny

theorem Sim.bindS {f : α → P γ} {f' : β → P δ} (h : Sim ks .strict R p p') (hf : ∀ v v', R v v' → Sim ks .any S (f v) (f' v')) :
    Sim ks .strict S (p >>= f) (p' >>= f') := Sim.bind h hf

theorem Sim.bindT {M : Mode} {f : α → P γ} {f' : β → P δ} (h : Sim ks M R p p') (hf : ∀ v v', R v v' → Sim ks .strict S (f v) (f' v')) :
    Sim ks .strict S (p >>= f) (p' >>= f') := by
  have := Sim.bind h hf
  cases M <;> exact this

theorem Sim.bindE {f : α → P γ} {f' : β → P δ} (h : Sim ks .even R p p') (hf : ∀ v v', R v v' → Sim ks .even S (f v) (f' v')) :
    Sim ks .even S (p >>= f) (p' >>= f') := Sim.bind h hf

theorem Sim.pure {v : α} {v' : β} (h : R v v') : Sim ks .even R (Pure.pure v : P α) (Pure.pure v' : P β) :=
  fun _ _ hr => .ok h hr (Nat.le_refl _) (Nat.le_refl _) (by simp [Moves])

theorem Sim.act {x : Py α} {y : Py β} (h : (∃ v v', x = .ok v ∧ y = .ok v' ∧ R v v') ∨ ∃ e, x = .error e ∧ y = .error e) :
    Sim ks .even R (act x) (act y) := by
  intro t t' hr
  unfold Peg.act
  rcases h with ⟨v, v', rfl, rfl, hv⟩ | ⟨e, rfl, rfl⟩
  · exact .ok hv hr (Nat.le_refl _) (Nat.le_refl _) (by simp [Moves])
  · exact .raise e

theorem Sim.actEq {x : Py α} : Sim ks .even Eq (Peg.act x) (Peg.act x) := by
  refine Sim.act ?_
  cases x with
  | ok v => exact .inl ⟨v, v, rfl, rfl, rfl⟩
  | error e => exact .inr ⟨e, rfl, rfl⟩

theorem Sim.failP {M : Mode} : Sim ks M R (failP : P α) (failP : P β) := fun _ _ _ => .fail

theorem Sim.alt {M : Mode} {q : P α} {q' : P β} (h : Sim ks M R p p') (k : Sim ks M R q q') : Sim ks M R (alt p q) (alt p' q') := by
  intro t t' hr
  have h1 := h t t' hr
  have h2 := k t t' hr
  unfold Peg.alt
  revert h1
  generalize p t = x; generalize p' t' = y
  intro h1
  cases h1 with
  | fail => exact h2
  | raise e => exact .raise e
  | ok a b c d e => exact .ok a b c d e

theorem Sim.altsNil {M : Mode} : Sim ks M R (alts ([] : List (P α))) (alts ([] : List (P β))) := Sim.failP

theorem Sim.altsCons {M : Mode} {l : List (P α)} {l' : List (P β)} (h : Sim ks M R p p') (k : Sim ks M R (alts l) (alts l')) :
    Sim ks M R (alts (p :: l)) (alts (p' :: l')) := Sim.alt h k

theorem Sim.opt {M : Mode} (h : Sim ks M R p p') : Sim ks .any (Opt2 R) (opt p) (opt p') := by
  intro t t' hr
  have h1 := h t t' hr
  unfold Peg.opt
  revert h1
  generalize p t = x; generalize p' t' = y
  intro h1
  cases h1 with
  | fail => exact .ok .none hr (Nat.le_refl _) (Nat.le_refl _) trivial
  | raise e => exact .raise e
  | ok a b c d e => exact .ok (.some a) b c d trivial

theorem Sim.optE (h : Sim ks .even R p p') : Sim ks .even (Opt2 R) (Peg.opt p) (Peg.opt p') := by
  intro t t' hr
  have h1 := h t t' hr
  unfold Peg.opt
  revert h1
  generalize p t = x; generalize p' t' = y
  intro h1
  cases h1 with
  | fail => exact .ok .none hr (Nat.le_refl _) (Nat.le_refl _) (by simp [Moves])
  | raise e => exact .raise e
  | ok a b c d e => exact .ok (.some a) b c d e

theorem Sim.ahead {M : Mode} (h : Sim ks M R p p') : Sim ks .even Eq (ahead p) (ahead p') := by
  intro t t' hr
  have h1 := h t t' hr
  unfold Peg.ahead
  revert h1
  generalize p t = x; generalize p' t' = y
  intro h1
  cases h1 with
  | fail => exact .fail
  | raise e => exact .raise e
  | ok a b c d e => exact .ok rfl hr (Nat.le_refl _) (Nat.le_refl _) (by simp [Moves])

theorem Sim.many (h : Sim ks .even R p p') : Sim ks .even (All2 R) (many p) (many p') := by
  intro t
  induction hn : t.length using Nat.strongRecOn generalizing t with
  | _ n ih =>
    intro t' hr
    have h1 := h t t' hr
    rw [Peg.many, Peg.many]
    revert h1
    generalize p t = x; generalize p' t' = y
    intro h1
    cases h1 with
    | fail => exact .ok .nil hr (Nat.le_refl _) (Nat.le_refl _) (by simp [Moves])
    | raise e => exact .raise e
    | @ok v v' r r' hv hrel l l' mv =>
      simp only [Moves] at mv
      by_cases hlt : r.length < t.length
      · have hlt' := mv.1 hlt
        simp only [hlt, hlt', if_true]
        have h2 := ih r.length (by omega) r rfl r' hrel
        revert h2
        generalize Peg.many p r = x; generalize Peg.many p' r' = y
        intro h2
        cases h2 with
        | fail => exact .fail
        | raise e => exact .raise e
        | ok a b c d e => exact .ok (.cons hv a) b (by omega) (by omega) (by simp only [Moves]; omega)
      · have hlt' : ¬ r'.length < t'.length := fun x => hlt (mv.2 x)
        simp only [hlt, hlt', if_false]
        exact .ok .nil hr (Nat.le_refl _) (Nat.le_refl _) (by simp [Moves])

theorem Sim.many1 {M : Mode} (hM : M = .strict ∨ M = .even) (h : Sim ks M R p p') : Sim ks M (All2 R) (many1 p) (many1 p') := by
  have he : Sim ks .even R p p' := by
    rcases hM with rfl | rfl
    · exact h.toEven
    · exact h
  intro t t' hr
  have h1 := h t t' hr
  unfold Peg.many1
  revert h1
  generalize p t = x; generalize p' t' = y
  intro h1
  cases h1 with
  | fail => exact .fail
  | raise e => exact .raise e
  | @ok v v' r r' hv hrel l l' mv =>
    have h2 := Sim.many he r r' hrel
    show SimR ks M (All2 R) t t' (match Peg.many p r with | .ok l s => .ok (v :: l) s | .fail => .fail | .raise e => .raise e)
      (match Peg.many p' r' with | .ok l s => .ok (v' :: l) s | .fail => .fail | .raise e => .raise e)
    revert h2
    generalize Peg.many p r = x; generalize Peg.many p' r' = y
    intro h2
    cases h2 with
    | fail => exact .fail
    | raise e => exact .raise e
    | ok a b c d e =>
      refine .ok (.cons hv a) b (by omega) (by omega) ?_
      have := mv.comp e l c l' d
      rcases hM with rfl | rfl <;> exact this
end

/-! ## tokens -/

theorem guard_eq {g : Guard} (hg : NextChar g) {r r' : Text} (h : Rel ks r r') (n : String) : g n r = g n r' := by
  rcases h.cases_on with ⟨rfl, rfl⟩ | ⟨x, x', rfl, hx', rfl | rfl⟩ | ⟨c, x, x', -, -, rfl, rfl, -⟩
  · rfl
  · rw [hg.passes _ _ _ (by decide), hg.passes _ _ _ (by decide)]
  · exact hg.one _ _ _ _
  · exact hg.one _ _ _ _

/-- A text without line ends. -/
def Plain (s : List Char) : Prop := '\n' ∉ s ∧ '\r' ∉ s

instance (s : List Char) : Decidable (Plain s) := by unfold Plain; infer_instance

theorem prefix_rel : ∀ {s : List Char}, Plain s → ∀ {t t' : Text}, Rel ks t t' →
    s.isPrefixOf t = s.isPrefixOf t' ∧ (s.isPrefixOf t = true → Rel ks (t.drop s.length) (t'.drop s.length) ∧
      (s ≠ [] → (t.drop s.length).length < t.length ∧ (t'.drop s.length).length < t'.length))
  | [], _, t, t', h => by simp [h]
  | c :: s, hs, t, t', h => by
    have hs' : Plain s := ⟨fun x => hs.1 (List.mem_cons_of_mem _ x), fun x => hs.2 (List.mem_cons_of_mem _ x)⟩
    have h1 : ¬ c = '\n' := fun e => hs.1 (by simp [e])
    have h2 : ¬ c = '\r' := fun e => hs.2 (by simp [e])
    rcases h.cases_on with ⟨rfl, rfl⟩ | ⟨x, x', rfl, hx', rfl | rfl⟩ | ⟨d, x, x', -, -, rfl, rfl, hx⟩
    · simp [List.isPrefixOf]
    · simp [List.isPrefixOf, beq_false_of_ne h1, beq_false_of_ne h2]
    · simp [List.isPrefixOf, beq_false_of_ne h1]
    · obtain ⟨i1, i2⟩ := prefix_rel hs' hx
      refine ⟨by simp [List.isPrefixOf, i1], fun hp => ?_⟩
      simp only [List.isPrefixOf, Bool.and_eq_true] at hp
      refine ⟨by simpa using (i2 hp.2).1, fun _ => ?_⟩
      simp only [List.length_cons, List.drop_succ_cons, List.length_drop]
      omega

theorem token_rel {g : Guard} (hg : NextChar g) {s : String} (hs : Plain s.toList) {t t' : Text} (h : Rel ks t t') :
    (token g t s = none ∧ token g t' s = none) ∨ ∃ r r', token g t s = some (s, r) ∧ token g t' s = some (s, r') ∧ Rel ks r r' ∧
      t = s.toList ++ r ∧ t' = s.toList ++ r' := by
  obtain ⟨h1, h2⟩ := prefix_rel hs h
  unfold token
  cases hp : s.toList.isPrefixOf t with
  | false => rw [hp] at h1; simp [← h1]
  | true =>
    have h3 := (h2 hp).1
    rw [hp] at h1
    rw [← h1]
    simp only [if_true]
    rw [← guard_eq hg h3 s]
    cases hgd : g s (t.drop s.toList.length) with
    | false => simp
    | true =>
      refine .inr ⟨_, _, by simp, by simp, h3, ?_, ?_⟩
      · obtain ⟨u, hu⟩ := List.isPrefixOf_iff_prefix.1 hp; rw [← hu]; simp
      · obtain ⟨u, hu⟩ := List.isPrefixOf_iff_prefix.1 h1.symm; rw [← hu]; simp

theorem Sim.tok {g : Guard} (hg : NextChar g) {s : String} (hs : Plain s.toList ∧ s.toList ≠ []) : Sim ks .strict Eq (tok g s) (tok g s) := by
  intro t t' hr
  unfold Peg.tok
  rcases token_rel hg hs.1 hr with ⟨h1, h2⟩ | ⟨r, r', h1, h2, h3, rfl, rfl⟩
  · rw [h1, h2]; exact .fail
  · rw [h1, h2]
    have : 0 < s.toList.length := by
      cases h : s.toList with
      | nil => exact absurd h hs.2
      | cons => simp
    refine .ok rfl h3 ?_ ?_ ⟨?_, ?_⟩ <;> rw [List.length_append] <;> omega

theorem Sim.oneOf {g : Guard} (hg : NextChar g) : ∀ {l : List String}, (∀ s ∈ l, Plain s.toList ∧ s.toList ≠ []) →
    Sim ks .strict Eq (oneOf g l) (oneOf g l)
  | [], _ => Sim.failP
  | s :: l, h => Sim.alt (Sim.tok hg (h s (by simp))) (Sim.oneOf hg (fun x hx => h x (by simp [hx])))

/-! ## characters -/

theorem nl_char {c : Char} (h1 : c ≠ '\n') (h2 : c ≠ '\r') (r : Text) : Peg.nl (c :: r) = .fail := by
  unfold Peg.nl; split
  · rename_i h; simp at h; exact absurd h.1 h1
  · rename_i h; simp at h; exact absurd h.1 h2
  · rfl

theorem Sim.nl : Sim ks .strict Eq nl nl := by
  intro t t' hr
  rcases hr.cases_on with ⟨rfl, rfl⟩ | ⟨x, x', rfl, hx, rfl | rfl⟩ | ⟨c, x, x', h1, h2, rfl, rfl, hx⟩
  · exact .fail
  · refine .ok rfl hx ?_ ?_ ⟨?_, ?_⟩ <;> simp <;> omega
  · refine .ok rfl hx ?_ ?_ ⟨?_, ?_⟩ <;> simp
  · rw [nl_char h1 h2, nl_char h1 h2]; exact .fail

/-- A single character that is no line end. -/
theorem Sim.chr {c : Char} (h1 : c ≠ '\n') (h2 : c ≠ '\r') : Sim ks .strict Eq (FwsmText.chr c) (FwsmText.chr c) := by
  intro t t' hr
  rcases hr.cases_on with ⟨rfl, rfl⟩ | ⟨x, x', rfl, hx', rfl | rfl⟩ | ⟨d, x, x', -, -, rfl, rfl, hx⟩
  · exact .fail
  · simp only [FwsmText.chr, Ne.symm h1, Ne.symm h2, if_false]; exact .fail
  · simp only [FwsmText.chr, Ne.symm h1, if_false]; exact .fail
  · simp only [FwsmText.chr]
    split
    · refine .ok rfl hx ?_ ?_ ⟨?_, ?_⟩ <;> simp
    · exact .fail

theorem sp_eq : sp = FwsmText.chr ' ' := by
  funext t; unfold sp FwsmText.chr
  cases t with
  | nil => rfl
  | cons c r =>
    by_cases h : c = ' '
    · subst h; rfl
    · simp only [h, if_false]
      split
      · rename_i h'; simp at h'; exact absurd h'.1 h
      · rfl

theorem slashP_eq : AclText.slashP = FwsmText.chr '/' := by
  funext t; unfold AclText.slashP FwsmText.chr
  cases t with
  | nil => rfl
  | cons c r =>
    by_cases h : c = '/'
    · subst h; rfl
    · simp only [h, if_false]
      split
      · rename_i h'; simp at h'; exact absurd h'.1 h
      · rfl

theorem colonP_eq : FwsmText.colonP = FwsmText.chr ':' := by
  funext t; unfold FwsmText.colonP FwsmText.chr
  cases t with
  | nil => rfl
  | cons c r =>
    by_cases h : c = ':'
    · subst h; rfl
    · simp only [h, if_false]
      split
      · rename_i h'; simp at h'; exact absurd h'.1 h
      · rfl

theorem Sim.sp : Sim ks .strict Eq sp sp := sp_eq ▸ Sim.chr (by decide) (by decide)
theorem Sim.slashP : Sim ks .strict Eq AclText.slashP AclText.slashP := slashP_eq ▸ Sim.chr (by decide) (by decide)
theorem Sim.colonP : Sim ks .strict Eq FwsmText.colonP FwsmText.colonP := colonP_eq ▸ Sim.chr (by decide) (by decide)

theorem wsOrNl_eq {t t' : Text} (h : Rel ks t t') : wsOrNl t = wsOrNl t' := by
  rcases h.cases_on with ⟨rfl, rfl⟩ | ⟨x, x', rfl, hx', rfl | rfl⟩ | ⟨c, x, x', h1, h2, rfl, rfl, -⟩
  · rfl
  · rfl
  · rfl
  · unfold wsOrNl
    split <;> first | (rename_i h; simp at h; first | (obtain ⟨rfl, _⟩ := h; rfl) | exact absurd h.1 h1 | exact absurd h.1 h2) | skip
    rename_i a b c' d
    split <;> first | rfl | (rename_i h; simp at h; first | (obtain ⟨rfl, _⟩ := h; first | exact absurd rfl (a _) | exact absurd rfl (b _) | exact absurd rfl h1 | exact absurd rfl h2))

theorem slash_eq {t t' : Text} (h : Rel ks t t') : slash t = slash t' := by
  rcases h.cases_on with ⟨rfl, rfl⟩ | ⟨x, x', rfl, hx', rfl | rfl⟩ | ⟨c, x, x', h1, h2, rfl, rfl, -⟩
  · rfl
  · rfl
  · rfl
  · by_cases hc : c = '/'
    · subst hc; rfl
    · unfold slash
      split
      · rename_i h; simp at h; exact absurd h.1 hc
      · split
        · rename_i h; simp at h; exact absurd h.1 hc
        · rfl

theorem Sim.endOfWord : Sim ks .even Eq AclText.endOfWord AclText.endOfWord := by
  intro t t' hr
  unfold AclText.endOfWord
  rw [wsOrNl_eq hr]
  cases wsOrNl t' with
  | false => exact .fail
  | true => exact .ok rfl hr (Nat.le_refl _) (Nat.le_refl _) (by simp [Moves])

end Acltk.Dos
