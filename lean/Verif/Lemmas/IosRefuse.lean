import Verif.Lemmas.IosStart
/-!
# XML, and what is not ASCII, is refused by the IOS parser
-/
namespace Acltk.IosText
open Acltk Acltk.Lookup Acltk.Peg Acltk.AclText
open Acltk.FwsmText (St)

variable {α β : Type} {g : Guard}

/-- No command begins with such a character. -/
def Outside (x : Char) : Prop := x = '<' ∨ 127 ≤ x.toNat

/-- The word begins with a character that is not outside. -/
def inside (w : List Char) : Bool :=
  match w with
  | [] => false
  | c :: _ => c != '<' && c.toNat < 127

/-- The rule does not apply at such a character. -/
def NoLt (p : P α) : Prop := ∀ x t, Outside x → p (x :: t) = .fail

theorem NoLt.bind {p : P α} {f : α → P β} (h : NoLt p) : NoLt (p >>= f) := fun x t hx => bind_fail (h x t hx)

theorem NoLt.alt {p q : P α} (hp : NoLt p) (hq : NoLt q) : NoLt (alt p q) := fun x t hx => by
  unfold Peg.alt
  rw [hp x t hx]
  exact hq x t hx

theorem NoLt.alts {l : List (P α)} (h : ∀ p ∈ l, NoLt p) : NoLt (alts l) := by
  induction l with
  | nil => exact fun x t _ => rfl
  | cons p l ih => exact NoLt.alt (h p (by simp)) (ih fun q hq => h q (by simp [hq]))

theorem NoLt.tok {w : String} (h : inside w.toList = true) : NoLt (tok g w) := by
  intro x t hx
  apply tok_prefix
  generalize w.toList = l at h
  cases l with
  | nil => cases h
  | cons c l =>
    have : c ≠ x := by
      rintro rfl
      simp only [inside, Bool.and_eq_true, bne_iff_ne, decide_eq_true_eq] at h
      rcases hx with e | e
      · exact h.1 e
      · omega
    simp [List.isPrefixOf, this]

theorem NoLt.many1 {p : P α} (h : NoLt p) : NoLt (many1 p) := NoLt.bind h

theorem NoLt.nl : NoLt nl := by
  intro x t hx
  unfold Peg.nl
  split
  · rename_i e
    cases e
    rcases hx with e | e
    · exact absurd e (by decide)
    · exact absurd e (by decide)
  · rename_i e
    cases e
    rcases hx with e | e
    · exact absurd e (by decide)
    · exact absurd e (by decide)
  · rfl

theorem NoLt.ignoredOf {l : List (String × Tail)} (h : ∀ kt ∈ l, inside kt.1.toList = true) :
    NoLt (ignoredOf g l) := by
  refine NoLt.alts ?_
  intro p hp
  obtain ⟨kt, hk, rfl⟩ := List.mem_map.1 hp
  exact NoLt.bind (NoLt.tok (h kt hk))

theorem NoLt.key {w : String} {f : String → P β} (h : inside w.toList = true) : NoLt (Peg.tok g w >>= f) :=
  NoLt.bind (NoLt.tok h)

theorem noLt_remarked {rem : P (List Char)} {p : P IRule} (h1 : NoLt rem) (h2 : NoLt p) : NoLt (remarked rem p) :=
  NoLt.alt (NoLt.bind (NoLt.many1 h1)) h2

theorem noLt_accessList {e : Env} : NoLt (accessList e) := by
  refine NoLt.alt (noLt_remarked (NoLt.key (by decide)) ?_) (noLt_remarked (NoLt.key (by decide)) ?_)
  · exact NoLt.alt (NoLt.bind (NoLt.key (by decide))) (NoLt.bind (NoLt.key (by decide)))
  · exact NoLt.bind (NoLt.key (by decide))

theorem noLt_command {s : St} : NoLt (command s) := by
  unfold command
  refine NoLt.alts ?_
  intro p hp
  simp only [List.mem_cons, List.not_mem_nil, or_false] at hp
  rcases hp with rfl | rfl | rfl | rfl | rfl | rfl | rfl | rfl | rfl
  · exact NoLt.bind (NoLt.bind (NoLt.key (by decide)))
  · exact NoLt.bind (NoLt.bind (NoLt.key (by decide)))
  · exact NoLt.bind (NoLt.bind (NoLt.key (by decide)))
  · exact NoLt.key (by decide)
  · exact NoLt.key (by decide)
  · exact NoLt.bind (NoLt.bind noLt_accessList)
  · exact NoLt.bind (NoLt.key (by decide))
  · exact NoLt.bind (NoLt.key (by decide))
  · refine NoLt.bind (NoLt.bind (NoLt.alts ?_))
    intro p hp
    simp only [List.mem_cons, List.not_mem_nil, or_false] at hp
    rcases hp with rfl | rfl | rfl | rfl | rfl | rfl | rfl | rfl
    · exact NoLt.ignoredOf (by decide +kernel)
    · exact NoLt.key (by decide)
    · exact NoLt.ignoredOf (by decide +kernel)
    · exact NoLt.key (by decide)
    · exact NoLt.ignoredOf (by decide +kernel)
    · exact NoLt.key (by decide)
    · exact NoLt.ignoredOf (by decide +kernel)
    · exact NoLt.nl

/-- Empty lines, then a character with which no command begins: refused. -/
theorem parseFile_outside {x : Char} (hx : Outside x) (ls : List (List Char)) (hl : ∀ n ∈ ls, n = ['\n'] ∨ n = ['\r', '\n'])
    (t : List Char) : parseFile g (ls.flatten ++ x :: t) = .fail := by
  have key : ∀ (s : St), ∃ l s', commands s (ls.flatten ++ x :: t) = .ok (l, s') (x :: t) := by
    induction ls with
    | nil =>
      intro s
      refine ⟨[], s, ?_⟩
      rw [List.flatten_nil, List.nil_append, commands, noLt_command x t hx]
    | cons n ls ih =>
      intro s
      obtain ⟨l, s', h⟩ := ih (fun n hn => hl n (by simp [hn])) s
      refine ⟨.base .nothing :: l, s', ?_⟩
      rw [List.flatten_cons, List.append_assoc, commands, command_blank (hl n (by simp))]
      have hlen : (ls.flatten ++ x :: t).length < (n ++ (ls.flatten ++ x :: t)).length := by
        rcases hl n (by simp) with rfl | rfl <;> (simp only [List.length_append, List.length_cons, List.length_nil]; omega)
      simp only [hlen, if_true]
      rw [h]
  obtain ⟨l, s', h⟩ := key { env := { guard := g } }
  unfold parseFile
  rw [h]
  simp only
  split
  · rfl
  · have : oneOf g ["line", "end"] (x :: t) = .fail :=
      NoLt.alt (NoLt.tok (by decide)) (NoLt.alt (NoLt.tok (by decide)) (fun _ _ _ => rfl)) x t hx
    rw [this]
    rfl

theorem parseFile_lt (t : List Char) : parseFile g ('<' :: t) = .fail := parseFile_outside (Or.inl rfl) [] (by simp) t

end Acltk.IosText
