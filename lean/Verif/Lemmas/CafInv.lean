import Verif.Lemmas.CafRead
import Verif.Lemmas.PegInv
/-!
# What an accepted CAF text looks like
-/
namespace Acltk.CafText
open Acltk Acltk.Lookup Acltk.Peg Acltk.Caf

variable {α β : Type} {g : Guard}

theorem Loose.append {ws vs : List Word} {c d : Text} (h : Loose ws c) (h2 : Loose vs d) : Loose (ws ++ vs) (c ++ d) := by
  induction h with
  | nil b hb =>
    cases h2 with
    | nil b' hb' => exact .nil _ (fun x hx => (List.mem_append.1 hx).elim (hb x) (hb' x))
    | cons b' w vs t hb' h2 =>
      rw [← List.append_assoc]
      exact .cons _ w vs t (fun x hx => (List.mem_append.1 hx).elim (hb x) (hb' x)) h2
  | cons b w ws t hb _ ih =>
    rw [List.append_assoc, List.append_assoc]
    exact .cons b w _ _ hb ih

theorem Loose.spaces {ws : List Word} {b c : Text} (hb : ∀ x ∈ b, isSpace x = true) (h : Loose ws c) : Loose ws (b ++ c) := by
  simpa using (Loose.nil b hb).append h

theorem Loose.word (w : Word) : Loose [w] w.text := by
  simpa using Loose.cons [] w [] [] (by simp) (.nil [] (by simp))

/-- Whatever the rule accepts consists of words related to the value. -/
def RW (p : P α) (R : List Word → α → Prop) : Prop := Reads p (fun c a => ∃ ws, Loose ws c ∧ R ws a)

theorem drop_split (t : Text) : ∃ b, t = b ++ t.dropWhile isSpace ∧ ∀ x ∈ b, isSpace x = true :=
  ⟨t.takeWhile isSpace, (List.takeWhile_append_dropWhile).symm, by
    intro x hx
    have := List.all_takeWhile (l := t) (p := isSpace)
    exact List.all_eq_true.1 this x hx⟩

theorem reads_skip {p : P α} {Q : Text → α → Prop} (h : Reads p Q) :
    Reads (skip p) (fun c a => ∃ b c', c = b ++ c' ∧ (∀ x ∈ b, isSpace x = true) ∧ Q c' a) := by
  intro t a r ht
  obtain ⟨b, e, hb⟩ := drop_split t
  obtain ⟨c, e2, hq⟩ := h _ _ _ ht
  exact ⟨b ++ c, by rw [e, e2]; simp, b, c, rfl, hb, hq⟩

theorem RW.mono {p : P α} {R S : List Word → α → Prop} (h : RW p R) (hi : ∀ ws a, R ws a → S ws a) : RW p S :=
  Reads.mono h (fun _ _ ⟨ws, h1, h2⟩ => ⟨ws, h1, hi _ _ h2⟩)

theorem RW.skip {p : P α} {R : List Word → α → Prop} (h : RW p R) : RW (skip p) R := by
  refine Reads.mono (reads_skip h) ?_
  rintro c a ⟨b, c', rfl, hb, ws, h1, h2⟩
  exact ⟨ws, h1.spaces hb, h2⟩

theorem RW.bind {p : P α} {f : α → P β} {R : List Word → α → Prop} {S : α → List Word → β → Prop} (h : RW p R)
    (hf : ∀ a, RW (f a) (S a)) : RW (p >>= f) (fun ws b => ∃ us vs a, ws = us ++ vs ∧ R us a ∧ S a vs b) := by
  intro t b r ht
  obtain ⟨a, s, h1, h2⟩ := bind_inv ht
  obtain ⟨c, rfl, us, l1, r1⟩ := h _ _ _ h1
  obtain ⟨d, rfl, vs, l2, r2⟩ := hf a _ _ _ h2
  exact ⟨c ++ d, by simp, us ++ vs, l1.append l2, us, vs, a, rfl, r1, r2⟩

theorem rw_pure (a : α) : RW (pure a : P α) (fun ws b => ws = [] ∧ b = a) := by
  refine Reads.mono (reads_pure a) ?_
  rintro c b ⟨rfl, rfl⟩
  exact ⟨[], .nil [] (by simp), rfl, rfl⟩

theorem rw_act (x : Py α) : RW (act x) (fun ws b => ws = [] ∧ x = .ok b) := by
  refine Reads.mono (reads_act x) ?_
  rintro c b ⟨rfl, h⟩
  exact ⟨[], .nil [] (by simp), rfl, h⟩

theorem RW.alt {p q : P α} {R : List Word → α → Prop} (hp : RW p R) (hq : RW q R) : RW (Peg.alt p q) R := Reads.alt hp hq

theorem rw_alts {l : List (P α)} {R : List Word → α → Prop} (h : ∀ p ∈ l, RW p R) : RW (alts l) R := reads_alts h

theorem RW.opt {p : P α} {R : List Word → α → Prop} (h : RW p R) :
    RW (Peg.opt p) (fun ws o => (ws = [] ∧ o = none) ∨ ∃ a, o = some a ∧ R ws a) := by
  intro t a r ht
  unfold Peg.opt at ht
  generalize hp : p t = v at ht
  cases v with
  | fail => cases ht; exact ⟨[], rfl, [], .nil [] (by simp), Or.inl ⟨rfl, rfl⟩⟩
  | raise e => cases ht
  | ok b s =>
    cases ht
    obtain ⟨c, e, ws, h1, h2⟩ := h _ _ _ hp
    exact ⟨c, e, ws, h1, Or.inr ⟨b, rfl, h2⟩⟩

/-- The rounds of a closure. -/
inductive RoundsW (R : List Word → α → Prop) : List Word → List α → Prop
  | nil : RoundsW R [] []
  | cons (us vs : List Word) (a : α) (l : List α) : R us a → RoundsW R vs l → RoundsW R (us ++ vs) (a :: l)

theorem rounds_words {R : List Word → α → Prop} {c : Text} {l : List α} (h : Rounds (fun c a => ∃ ws, Loose ws c ∧ R ws a) c l) :
    ∃ ws, Loose ws c ∧ RoundsW R ws l := by
  induction h with
  | nil => exact ⟨[], .nil [] (by simp), .nil⟩
  | cons c d a l h _ ih =>
    obtain ⟨us, h1, h2⟩ := h
    obtain ⟨vs, i1, i2⟩ := ih
    exact ⟨us ++ vs, h1.append i1, .cons us vs a l h2 i2⟩

theorem RW.many {p : P α} {R : List Word → α → Prop} (h : RW p R) : RW (Peg.many p) (RoundsW R) :=
  Reads.mono (reads_many h) (fun _ _ h => rounds_words h)

theorem RW.many1 {p : P α} {R : List Word → α → Prop} (h : RW p R) : RW (Peg.many1 p) (fun ws l => l ≠ [] ∧ RoundsW R ws l) :=
  Reads.mono (reads_many1 h) (fun _ _ ⟨h1, h2⟩ => let ⟨ws, a, b⟩ := rounds_words h2; ⟨ws, a, h1, b⟩)

theorem rw_key (g : Guard) (s : String) : RW (key g s) (fun ws a => ws = [.key s] ∧ a = s) := by
  refine RW.skip ?_
  refine Reads.mono (reads_tok g s) ?_
  rintro c a ⟨rfl, rfl⟩
  exact ⟨[.key a], Loose.word (.key a), rfl, rfl⟩

/-- A rule for one keyword. -/
theorem rw_word (g : Guard) (s : String) (v : α) : RW (do let _ ← key g s; pure v) (fun ws a => ws = [.key s] ∧ a = v) := by
  refine ((rw_key g s).bind fun _ => rw_pure v).mono ?_
  rintro ws a ⟨us, vs, x, rfl, ⟨rfl, -⟩, rfl, rfl⟩
  exact ⟨rfl, rfl⟩

theorem scanBody_suffix : ∀ (n : Nat) (r : List Char), r.length ≤ n → ∃ b, r = b ++ scanBody r
  | 0, r, h => by
    have : r = [] := List.length_eq_zero_iff.1 (by omega)
    subst this; exact ⟨[], rfl⟩
  | n + 1, r, h => by
    unfold scanBody
    split
    · exact ⟨[], rfl⟩
    · exact ⟨[], rfl⟩
    · rename_i c u _
      obtain ⟨b, hb⟩ := scanBody_suffix n u (by simp at h; omega)
      exact ⟨'*' :: c :: b, by simp [← hb]⟩
    · exact ⟨[], rfl⟩
    · rename_i c u _ _ _
      obtain ⟨b, hb⟩ := scanBody_suffix n u (by simp at h; omega)
      exact ⟨c :: b, by simp [← hb]⟩

theorem rw_comment : RW commentP (fun ws _ => ∃ b, ws = [.comment b]) := by
  refine RW.skip ?_
  intro t a r ht
  simp only at ht
  split at ht
  · rename_i r' hc
    cases ht
    unfold comment at hc
    split at hc
    · rename_i u
      split at hc
      · rename_i v hs
        cases hc
        obtain ⟨b, hb⟩ := scanBody_suffix _ u (Nat.le_refl _)
        rw [hs] at hb
        refine ⟨(Word.comment b).text, by rw [hb]; simp [Word.text], [.comment b], Loose.word _, b, rfl⟩
      · cases hc
    · cases hc
  · cases ht

theorem rounds_comments {ws : List Word} {l : List Unit} (h : RoundsW (fun ws _ => ∃ b, ws = [.comment b]) ws l) :
    CommentsOf AnyBody ws ∧ (l ≠ [] → ws ≠ []) := by
  induction h with
  | nil => exact ⟨.nil, by simp⟩
  | cons us vs a l h _ ih =>
    obtain ⟨b, rfl⟩ := h
    exact ⟨.cons b vs trivial ih.1, by simp⟩

theorem rw_comments : RW commentsP (fun ws _ => CommentsOf AnyBody ws ∧ ws ≠ []) := by
  refine RW.skip ((rw_comment.many1.bind fun _ => rw_pure ()).mono ?_)
  rintro ws a ⟨us, vs, l, rfl, ⟨hne, h⟩, rfl, rfl⟩
  rw [List.append_nil]
  exact ⟨(rounds_comments h).1, (rounds_comments h).2 hne⟩

theorem rw_op (g : Guard) : RW (opP g) (fun ws o => ws = [.key (opWord o)]) := by
  refine RW.skip (rw_alts ?_)
  intro p hp
  simp only [List.mem_cons, List.not_mem_nil, or_false] at hp
  rcases hp with rfl | rfl | rfl
  · exact (rw_word g "union" Op.union).mono (by rintro ws a ⟨rfl, rfl⟩; rfl)
  · exact (rw_word g "intersect" Op.intersect).mono (by rintro ws a ⟨rfl, rfl⟩; rfl)
  · exact (rw_word g "except" Op.except).mono (by rintro ws a ⟨rfl, rfl⟩; rfl)

theorem rw_direction (g : Guard) : RW (direction g) (fun ws d => ws = [.key (dirWord d)]) := by
  refine RW.skip (rw_alts ?_)
  intro p hp
  simp only [List.mem_cons, List.not_mem_nil, or_false] at hp
  rcases hp with rfl | rfl
  · exact (rw_word g "src" Dir.src).mono (by rintro ws a ⟨rfl, rfl⟩; rfl)
  · exact (rw_word g "dst" Dir.dst).mono (by rintro ws a ⟨rfl, rfl⟩; rfl)

theorem reads_plus {q : Char → Bool} : Reads (pat (.plus q)) (fun c a => a = c ∧ c ≠ [] ∧ ∀ x ∈ c, q x = true) := by
  intro t a r ht
  have hw : (Re.plus q).Within (fun c => q c = true) := by
    simp only [Re.plus, Re.Within]
    exact ⟨fun _ h => h, fun _ h => h⟩
  obtain ⟨c, e, rfl, h2⟩ := reads_pat hw _ _ _ ht
  refine ⟨_, e, rfl, ?_, h2⟩
  rintro rfl
  simp at e
  subst e
  cases t with
  | nil => unfold pat Re.plus at ht; simp [Re.run] at ht
  | cons x t =>
    unfold pat at ht
    generalize hl : (Re.plus q).run (x :: t) = l at ht
    cases l with
    | nil => cases ht
    | cons s l =>
      simp only [Res.ok.injEq] at ht
      obtain ⟨-, rfl⟩ := ht
      have hm : (x :: t) ∈ (Re.plus q).run (x :: t) := by rw [hl]; simp
      unfold Re.plus at hm
      simp only [Re.run, List.mem_flatMap] at hm
      obtain ⟨s, hs, hm⟩ := hm
      split at hs
      · simp at hs; subst hs
        obtain ⟨d, hd, -⟩ := starRests_inv hm
        have := congrArg List.length hd
        simp at this; omega
      · simp at hs

theorem address_inv {w : List Char} {a : Addr} (h : ipAddress w = .ok a) : AddressText w a := by
  obtain ⟨v, n⟩ := a
  cases v with
  | v4 => obtain ⟨h1, rfl⟩ := ((C64_address_text w).1 n).1 h; exact .v4 n h1
  | v6 => exact .v6 w n (((C64_address_text w).2.1 n).1 h)

theorem network_inv {w m : List Char} {n : Net} (h : mkNetwork w m = .ok n) : ∃ a p, AddressText w a ∧ MaskText a.ver m p ∧ AclText.NetworkOf a p n := by
  by_cases hx : ∃ x, ipAddress w = .ok x
  · obtain ⟨x, hx⟩ := hx
    rw [mkNetwork_of_address hx] at h
    cases hm : makeNetmask x.ver m with
    | none => rw [hm] at h; cases h
    | some p =>
      have hmt := makeNetmask_iff.1 hm
      obtain ⟨net, h1, h2, h3, h4, h5⟩ := C19_network_denotes w m x p hx hmt
      rw [mkNetwork_of_address hx, hm] at h1
      rw [hm] at h
      simp only at h h1
      rw [h] at h1
      cases h1
      exact ⟨x, p, address_inv hx, hmt, h2, h3, h4, h5⟩
  · rw [mkNetwork_of_bad_address (fun x hx' => hx ⟨x, hx'⟩)] at h; cases h

theorem reads_mask (g : Guard) : Reads (maskP g) (fun c m => ∃ b b', c = b ++ '/' :: (b' ++ m) ∧ (∀ x ∈ b, isSpace x = true) ∧
    (∀ x ∈ b', isSpace x = true) ∧ m ≠ [] ∧ ∀ x ∈ m, x.isDigit = true) := by
  intro t a r ht
  obtain ⟨x, s, h1, h2⟩ := bind_inv ht
  obtain ⟨c, rfl, b, c', rfl, hb, rfl, rfl⟩ := reads_skip (reads_tok g "/") _ _ _ h1
  obtain ⟨d, rfl, b', d', rfl, hb', rfl, hne, hd⟩ := reads_skip reads_plus _ _ _ h2
  exact ⟨b ++ '/' :: (b' ++ a), by simp, b, b', rfl, hb, hb', hne, hd⟩

theorem pat_self {e : Re} : Reads (pat e) (fun c a => a = c) :=
  Reads.mono (reads_pat (P := fun _ => True) (e := e) (by induction e <;> simp_all [Re.Within])) (fun _ _ h => h.1)

theorem rw_network (g : Guard) : RW (network g) (fun ws h => ∃ w, ws = [.network w] ∧ NetworkWord w h) := by
  rw [network_eq]
  refine RW.skip (RW.alt (rw_alts ?_) ?_)
  · intro p hp
    have kw : ∀ (s : String) (h : Host), NetworkWord s.toList h →
        RW (do let _ ← key g s; pure h) (fun ws h => ∃ w, ws = [.network w] ∧ NetworkWord w h) := by
      intro s h hw
      intro t a r ht
      obtain ⟨x, u, h1, h2⟩ := bind_inv ht
      cases h2
      obtain ⟨c, e, b, c', rfl, hb, rfl, rfl⟩ := reads_skip (reads_tok g s) _ _ _ h1
      exact ⟨_, e, [.network x.toList], (Loose.word (.network x.toList)).spaces hb, _, rfl, hw⟩
    simp only [anyKeys, List.map_cons, List.map_nil, List.mem_cons, List.not_mem_nil, or_false] at hp
    rcases hp with rfl | rfl | rfl | rfl | rfl | rfl
    · exact kw "ANY4" _ .ANY4
    · exact kw "ANY6" _ .ANY6
    · exact kw "ANY" _ .ANY
    · exact kw "any4" _ .any4
    · exact kw "any6" _ .any6
    · exact kw "any" _ .any
  · intro t a r ht
    obtain ⟨w, s, h1, h2⟩ := bind_inv ht
    obtain ⟨m, s', h3, h4⟩ := bind_inv h2
    have hw : ∃ b, t = b ++ w ++ s ∧ ∀ x ∈ b, isSpace x = true := by
      rcases alt_inv h1 with h | h
      · obtain ⟨c, e, b, c', rfl, hb, rfl⟩ := reads_skip pat_self _ _ _ h
        exact ⟨b, e, hb⟩
      · obtain ⟨c, e, b, c', rfl, hb, rfl⟩ := reads_skip pat_self _ _ _ h
        exact ⟨b, e, hb⟩
    obtain ⟨b, rfl, hb⟩ := hw
    obtain ⟨c, e4, rfl, h4⟩ := reads_act _ _ _ _ h4
    simp at e4; subst e4
    unfold opt at h3
    generalize hp : maskP g s = v at h3
    cases v with
    | raise e => cases h3
    | fail =>
      cases h3
      simp only [addressSem] at h4
      split at h4
      · rename_i x hx
        cases h4
        exact ⟨b ++ w, rfl, [.network w], (Loose.word (.network w)).spaces hb, w, rfl, .host w x (address_inv hx)⟩
      · cases h4
    | ok m' s'' =>
      cases h3
      obtain ⟨c, rfl, b1, b2, rfl, hb1, hb2, hne, hd⟩ := reads_mask g _ _ _ hp
      simp only [addressSem] at h4
      split at h4
      · rename_i n hn
        cases h4
        obtain ⟨x, p, i1, i2, i3⟩ := network_inv hn
        refine ⟨b ++ (w ++ (b1 ++ '/' :: (b2 ++ m'))), by simp, [.network (w ++ (b1 ++ '/' :: (b2 ++ m')))], (Loose.word (.network _)).spaces hb, _, rfl,
          .net w b1 b2 m' x p n i1 hb1 hb2 hne hd i2 i3⟩
      · cases h4

theorem rounds_networks {ws : List Word} {l : List Host} (h : RoundsW (fun ws h => ∃ w, ws = [.network w] ∧ NetworkWord w h) ws l) (hne : l ≠ []) :
    NetworkWords l ws := by
  induction h with
  | nil => exact absurd rfl hne
  | cons us vs a l h h2 ih =>
    obtain ⟨w, rfl, hw⟩ := h
    cases l with
    | nil => cases h2; exact .one a w hw
    | cons b l => exact .cons a w _ vs hw (ih (by simp))

theorem rw_net (g : Guard) : RW (net g) (fun ws h => ∃ nets, NetworkWords nets ws ∧ h = netSem nets) := by
  refine RW.skip (((rw_network g).many1.bind fun l => rw_pure (netSem l)).mono ?_)
  rintro ws a ⟨us, vs, l, rfl, ⟨hne, h⟩, rfl, rfl⟩
  rw [List.append_nil]
  exact ⟨l, rounds_networks h hne, rfl⟩

theorem rw_setIp (g : Guard) : RW (setIp g) (fun ws o => ∃ d nets ns, o = .ip d (netSem nets) ∧ NetworkWords nets ns ∧
    ws = .key "ip" :: .key (dirWord d) :: ns) := by
  refine RW.skip (((rw_key g "ip").bind fun _ => (rw_direction g).bind fun d => (rw_net g).bind fun n => rw_pure (SetObj.ip d n)).mono ?_)
  rintro ws a ⟨us, vs, x, rfl, ⟨rfl, -⟩, us, vs, d, rfl, rfl, us, vs, n, rfl, ⟨nets, h, rfl⟩, rfl, rfl⟩
  exact ⟨d, nets, us, rfl, h, by simp⟩

theorem rw_setId (g : Guard) : RW (setId g) (fun ws w => IdText w ∧ ws = [.key "id", .id w]) := by
  have hp : RW (skip (pat (.plus isPatternChar))) (fun ws w => IdText w ∧ ws = [.id w]) := by
    refine RW.skip ?_
    refine Reads.mono reads_plus ?_
    rintro c a ⟨rfl, hne, h⟩
    exact ⟨[.id a], Loose.word (.id a), ⟨hne, fun x hx => (isPatternChar_iff x).1 (h x hx)⟩, rfl⟩
  refine RW.skip (((rw_key g "id").bind fun _ => hp).mono ?_)
  rintro ws a ⟨us, vs, x, rfl, ⟨rfl, -⟩, h, rfl⟩
  exact ⟨h, rfl⟩

/-- What the inner rule has to deliver. -/
def ChainP (inner : P Expr) : Prop := RW inner (fun ws e => ∃ c, ChainOf AnyBody c ws ∧ chainVal c = .ok e)

/-- The clauses of a set. -/
def Clause (ws : List Word) (o : SetObj) : Prop :=
  (o = .comment ∧ CommentsOf AnyBody ws) ∨
  (∃ d nets ns, o = .ip d (netSem nets) ∧ NetworkWords nets ns ∧ ws = .key "ip" :: .key (dirWord d) :: ns) ∨
  (∃ c cs e, ChainOf AnyBody c cs ∧ chainVal c = .ok e ∧ o = .block (.block e) ∧ ws = .key "(" :: (cs ++ [.key ")"]))

theorem rw_setR (g : Guard) {inner : P Expr} (hin : ChainP inner) : RW (setR g inner) Clause := by
  refine RW.skip (rw_alts ?_)
  intro p hp
  simp only [List.mem_cons, List.not_mem_nil, or_false] at hp
  rcases hp with rfl | rfl | rfl
  · exact (rw_setIp g).mono (fun _ _ h => Or.inr (Or.inl h))
  · refine RW.skip (((rw_key g "(").bind fun _ => RW.bind hin fun e => (rw_key g ")").bind fun _ => rw_pure (SetObj.block (.block e))).mono ?_)
    rintro ws a ⟨us, vs, x, rfl, ⟨rfl, -⟩, us, vs, e, rfl, ⟨c, hc, hv⟩, us', vs', y, rfl, ⟨rfl, -⟩, rfl, rfl⟩
    exact Or.inr (Or.inr ⟨c, us, e, hc, hv, rfl, by simp⟩)
  · refine (rw_comments.bind fun _ => rw_pure SetObj.comment).mono ?_
    rintro ws a ⟨us, vs, x, rfl, ⟨h, -⟩, rfl, rfl⟩
    rw [List.append_nil]
    exact Or.inl ⟨rfl, h⟩

theorem items_comments {cs ws : List Word} {objs : Items} {l : List SetObj} (h : CommentsOf AnyBody cs) (ho : ItemsOf AnyBody objs ws)
    (hv : itemVals objs = .ok l) : ∃ objs' l', ItemsOf AnyBody objs' (cs ++ ws) ∧ itemVals objs' = .ok l' ∧ l'.filter solid = l.filter solid := by
  induction h with
  | nil => exact ⟨objs, l, ho, hv, rfl⟩
  | cons b cs hb _ ih =>
    obtain ⟨objs', l', h1, h2, h3⟩ := ih
    refine ⟨.comment objs', .comment :: l', .comment b objs' _ hb h1, ?_, ?_⟩
    · rw [itemVals, h2]
    · rw [List.filter_cons_of_neg (by simp [solid]), h3]

theorem rounds_items {ws : List Word} {l : List SetObj} (h : RoundsW Clause ws l) :
    ∃ objs l', ItemsOf AnyBody objs ws ∧ itemVals objs = .ok l' ∧ l'.filter solid = l.filter solid := by
  induction h with
  | nil => exact ⟨.nil, [], .nil, rfl, rfl⟩
  | cons us vs a l h _ ih =>
    obtain ⟨objs, l', h1, h2, h3⟩ := ih
    rcases h with ⟨rfl, hc⟩ | ⟨d, nets, ns, rfl, hn, rfl⟩ | ⟨c, cs, e, hc, hv, rfl, rfl⟩
    · obtain ⟨objs', l'', i1, i2, i3⟩ := items_comments hc h1 h2
      refine ⟨objs', l'', i1, i2, ?_⟩
      rw [List.filter_cons_of_neg (by simp [solid]), i3, h3]
    · refine ⟨.ip d nets objs, .ip d (netSem nets) :: l', .ip d nets objs ns vs hn h1, by rw [itemVals, h2], ?_⟩
      rw [List.filter_cons_of_pos (by simp [solid]), List.filter_cons_of_pos (by simp [solid]), h3]
    · have e2 : Word.key "(" :: (cs ++ [.key ")"]) ++ vs = Word.key "(" :: (cs ++ .key ")" :: vs) := by simp
      rw [e2]
      refine ⟨.paren c objs, .block (.block e) :: l', .paren c objs cs vs hc h1, ?_, ?_⟩
      · rw [itemVals]
        unfold chainVal at hv
        cases hi : chainItems c with
        | error x => rw [hi] at hv; cases hv
        | ok l => rw [hi] at hv; simp only at hv ⊢; rw [hv, h2]
      · rw [List.filter_cons_of_pos (by simp [solid]), List.filter_cons_of_pos (by simp [solid]), h3]

theorem rw_set (g : Guard) {inner : P Expr} (hin : ChainP inner) :
    RW (setP g inner) (fun ws e => ∃ s, SetOf AnyBody s ws ∧ setVal s = .ok e) := by
  refine RW.skip ((rw_comments.opt.bind fun _ => (rw_setId g).opt.bind fun id => (rw_setR g hin).many.bind fun objs =>
    rw_act (setSem (id.map String.ofList) objs)).mono ?_)
  rintro ws a ⟨cs, vs, x, rfl, hc, is, vs, id, rfl, hi, os, vs, l, rfl, ho, rfl, hs⟩
  obtain ⟨objs, l', h1, h2, h3⟩ := rounds_items ho
  have hc : CommentsOf AnyBody cs := by
    rcases hc with ⟨rfl, -⟩ | ⟨_, -, h, -⟩
    · exact .nil
    · exact h
  have hi : IdWords (id.map String.ofList) is := by
    rcases hi with ⟨rfl, rfl⟩ | ⟨w, rfl, h, rfl⟩
    · exact .none
    · exact .some w h
  refine ⟨.mk (id.map String.ofList) objs, ?_, ?_⟩
  · rw [List.append_nil]
    exact .mk _ objs cs is os hc hi h1
  · rw [setVal, h2]
    simp only
    rw [setSem_solid h3]; exact hs

/-! ## chains -/

theorem bind_fail_inv {p : P α} {f : α → P β} {t : Text} (h : (p >>= f) t = .fail) :
    p t = .fail ∨ ∃ a s, p t = .ok a s ∧ f a s = .fail := by
  rw [bind_apply] at h
  generalize hp : p t = v at h
  cases v with
  | ok a s => exact Or.inr ⟨a, s, rfl, h⟩
  | fail => exact Or.inl rfl
  | raise e => cases h

theorem many_ne_fail {p : P α} : ∀ (n : Nat) (t : Text), t.length ≤ n → many p t ≠ .fail := by
  intro n
  induction n with
  | zero =>
    intro t ht h
    rw [many] at h
    generalize hp : p t = v at h
    cases v with
    | fail => cases h
    | raise e => cases h
    | ok a s =>
      simp only at h
      split at h
      · rename_i hl; omega
      · cases h
  | succ n ih =>
    intro t ht h
    rw [many] at h
    generalize hp : p t = v at h
    cases v with
    | fail => cases h
    | raise e => cases h
    | ok a s =>
      simp only at h
      split at h
      · rename_i hl
        have := ih s (by omega)
        generalize many p s = w at h this
        cases w with
        | fail => exact this rfl
        | raise e => cases h
        | ok l u => cases h
      · cases h

theorem many1_fail_inv {p : P α} {t : Text} (h : many1 p t = .fail) : p t = .fail := by
  unfold many1 at h
  generalize hp : p t = v at h
  cases v with
  | fail => rfl
  | raise e => cases h
  | ok a s =>
    simp only at h
    have := many_ne_fail (p := p) _ s (Nat.le_refl _)
    generalize many p s = w at h this
    cases w with
    | fail => exact absurd rfl this
    | raise e => cases h
    | ok l u => cases h

theorem alt_fail_inv {p q : P α} {t : Text} (h : alt p q t = .fail) : p t = .fail ∧ q t = .fail := by
  unfold alt at h
  generalize hp : p t = v at h
  cases v with
  | ok a s => cases h
  | fail => exact ⟨rfl, h⟩
  | raise e => cases h

theorem drop_idem (t : Text) : (t.dropWhile isSpace).dropWhile isSpace = t.dropWhile isSpace := by
  induction t with
  | nil => rfl
  | cons c t ih =>
    by_cases hc : isSpace c = true
    · rw [List.dropWhile_cons_of_pos hc]; exact ih
    · have hc : isSpace c = false := by simpa using hc
      rw [drop_proper hc, drop_proper hc]

/-- One round of the closure of `expr_r`. -/
def roundP (g : Guard) (set : P Expr) (k : Nat) : P (List Item) := do
  let o ← opP g
  let r ← alt (exprR g set k) (do
    let y ← set
    pure [.set y])
  pure (.op o :: r)

theorem exprR_succ (g : Guard) (set : P Expr) (k : Nat) : exprR g set (k + 1) = skip (do
    let x ← set
    let l ← many1 (roundP g set k)
    pure (.set x :: l.headD [])) := rfl

theorem round_fail {set : P Expr} {k k' : Nat} (hm : ∀ t, exprR g set k t = .fail → exprR g set k' t = .fail) {t : Text}
    (h : roundP g set k t = .fail) : roundP g set k' t = .fail := by
  rcases bind_fail_inv h with h | ⟨o, s, h1, h2⟩
  · exact bind_fail h
  · show (opP g >>= _) t = _
    rw [bind_ok h1]
    rcases bind_fail_inv h2 with h | ⟨r, s', -, h⟩
    · obtain ⟨i1, i2⟩ := alt_fail_inv h
      apply bind_fail
      rw [alt_fail (hm _ i1)]
      exact i2
    · cases h

theorem exprR_fail_step {set : P Expr} : ∀ (k : Nat) (t : Text), exprR g set k t = .fail → exprR g set (k + 1) t = .fail
  | 0, t, h => by cases h
  | k + 1, t, h => by
    rw [exprR_succ] at h ⊢
    rcases bind_fail_inv h with h | ⟨x, s, h1, h2⟩
    · exact bind_fail h
    · show (set >>= _) _ = _
      rw [bind_ok h1]
      rcases bind_fail_inv h2 with h | ⟨r, s', -, h⟩
      · apply bind_fail
        apply many1_fail
        exact round_fail (exprR_fail_step k) (many1_fail_inv h)
      · cases h

theorem exprR_fail_mono {set : P Expr} {k k' : Nat} (hk : k ≤ k') {t : Text} (h : exprR g set k t = .fail) : exprR g set k' t = .fail := by
  induction hk with
  | refl => exact h
  | step _ ih => exact exprR_fail_step _ _ ih

theorem round_fail_mono {set : P Expr} {k k' : Nat} (hk : k ≤ k') {t : Text} (h : roundP g set k t = .fail) : roundP g set k' t = .fail :=
  round_fail (fun _ h => exprR_fail_mono hk h) h

theorem exprR_inv {set : P Expr} (hs : RW set (fun ws e => ∃ s, SetOf AnyBody s ws ∧ setVal s = .ok e))
    (hd : ∀ t, set (t.dropWhile isSpace) = set t) : ∀ (k : Nat) (t r : Text) (l : List Item), exprR g set k t = .ok l r →
      (∃ c ws u, t = u ++ r ∧ Loose ws u ∧ ChainOf AnyBody c ws ∧ chainItems c = .ok l) ∧
        ∀ k', k ≤ k' + 1 → roundP g set k' r = .fail
  | 0, t, r, l, h => by cases h
  | k + 1, t, r, l, h => by
    rw [exprR_succ] at h
    obtain ⟨x, s, h1, h2⟩ := bind_inv h
    obtain ⟨ls, s', h3, h4⟩ := bind_inv h2
    cases h4
    rw [hd] at h1
    unfold many1 at h3
    generalize hr : roundP g set k s = v at h3
    cases v with
    | fail => cases h3
    | raise e => cases h3
    | ok a s1 =>
      obtain ⟨o, s0, h5, h6⟩ := bind_inv hr
      obtain ⟨rr, s1', h7, h8⟩ := bind_inv h6
      cases h8
      have key : (∃ c ws u, s0 = u ++ s1 ∧ Loose ws u ∧ ChainOf AnyBody c ws ∧ chainItems c = .ok rr) ∧
          ∀ k', k ≤ k' → roundP g set k' s1 = .fail := by
        unfold alt at h7
        generalize he : exprR g set k s0 = v at h7
        cases v with
        | raise e => cases h7
        | ok rr' s1' =>
          cases h7
          obtain ⟨i1, i2⟩ := exprR_inv hs hd k _ _ _ he
          exact ⟨i1, fun k' hk => i2 k' (by omega)⟩
        | fail =>
          simp only at h7
          obtain ⟨y, s2, h9, h10⟩ := bind_inv h7
          cases h10
          obtain ⟨u, rfl, ws, hl, ss, hss, hv⟩ := hs _ _ _ h9
          refine ⟨⟨.one ss, ws, u, rfl, hl, .one ss ws hss, by rw [chainItems, hv]⟩, ?_⟩
          intro k' hk
          cases k with
          | zero => cases he
          | succ m =>
            rw [exprR_succ] at he
            have he : (set >>= fun x => (many1 (roundP g set m) >>= fun l => pure (.set x :: l.headD []))) ((u ++ s1).dropWhile isSpace) = .fail := he
            rw [bind_apply, hd, h9] at he
            simp only at he
            rcases bind_fail_inv he with h | ⟨r, s', -, h⟩
            · exact round_fail_mono (by omega) (many1_fail_inv h)
            · cases h
      obtain ⟨⟨c, ws, u, rfl, hl, hc, hci⟩, hf⟩ := key
      have hm : many (roundP g set k) s1 = .ok [] s1 := many_fail (hf k (Nat.le_refl _))
      simp only [hm] at h3
      cases h3
      obtain ⟨u1, rfl, ws1, hl1, s1', hs1, hv1⟩ := hs _ _ _ h1
      obtain ⟨u2, rfl, ws2, hl2, rfl⟩ := rw_op g _ _ _ h5
      refine ⟨⟨.more s1' o c, ws1 ++ .key (opWord o) :: ws, u1 ++ (u2 ++ u), by simp, ?_, .more s1' o c ws1 ws hs1 hc, ?_⟩, ?_⟩
      · exact hl1.append (hl2.append hl)
      · rw [chainItems, hv1, hci]; rfl
      · intro k' hk
        exact hf k' (by omega)

theorem rw_expr (g : Guard) : ∀ n, ChainP (expr g n)
  | 0 => by intro t a r h; cases h
  | n + 1 => by
    have hs := rw_set g (rw_expr g n)
    unfold ChainP
    rw [expr]
    refine RW.skip (RW.alt ?_ ?_)
    · intro t a r h
      obtain ⟨l, s, h1, h2⟩ := bind_inv h
      obtain ⟨c, e, rfl, h3⟩ := reads_act _ _ _ _ h2
      simp at e; subst e
      obtain ⟨⟨c, ws, u, rfl, hl, hc, hi⟩, -⟩ := exprR_inv (g := g) hs (fun t => by show skip _ _ = skip _ _; unfold skip; rw [drop_idem]) _ _ _ _ h1
      refine ⟨u, rfl, ws, hl, c, hc, ?_⟩
      rw [chainVal, hi]; exact h3
    · refine hs.mono ?_
      rintro ws e ⟨s, h1, h2⟩
      refine ⟨.one s, .one s ws h1, ?_⟩
      rw [chainVal, chainItems, h2]
      exact exprSem_one e

theorem parse_inv {n : Nat} {t r : Text} {e : Expr} (h : parse g n t = .ok e r) :
    ∃ c ws, ChainOf AnyBody c ws ∧ Loose ws t ∧ parsed c = .ok e := by
  unfold parse at h
  generalize hv : expr g n t = v at h
  cases v with
  | fail => cases h
  | raise x => cases h
  | ok e' s =>
    simp only at h
    split at h
    · rename_i hs
      cases h
      obtain ⟨u, rfl, ws, hl, c, hc, hcv⟩ := rw_expr g n _ _ _ hv
      obtain ⟨b, hb, hb'⟩ := drop_split s
      rw [hs, List.append_nil] at hb
      subst hb
      refine ⟨c, ws, hc, by simpa using hl.append (.nil s hb'), ?_⟩
      unfold chainVal at hcv
      unfold parsed
      cases hi : chainItems c with
      | error x => rw [hi] at hcv; cases hcv
      | ok l =>
        rw [hi] at hcv
        simp only at hcv ⊢
        rw [hcv]
    · cases h

end Acltk.CafText
