import Verif.Lemmas.CafInv
import Verif.Props.Lookup
/-!
# C73–C76: filter texts
-/
namespace Acltk.CafText
open Acltk Acltk.Lookup Acltk.Peg Acltk.Caf

/-- **C73**: a filter text whose words are those of a filter, with white space between them as required, is read as that
filter: running the result on any rules and NAT objects yields exactly those the filter means. -/
theorem C73_filter_text_selects (g : Guard) (hg : NameGuard g) (c : Chain) (ws : List Word) (t : List Char) (n : Nat)
    (hc : ChainWords c ws) (ht : Written ws t) (hok : ChainOk c) (hn : chainDepth c ≤ n) :
    ∃ e, parse g n t = .ok e [] ∧ ∀ (heap : Oid → Entry) (rules : List Oid) (D fuel : Nat),
      (∀ o ∈ rules, EntryOk (heap o)) → (∀ o ∈ rules, EntryDepth D (heap o)) → e.height + 3 + D + 5 ≤ fuel →
      ∃ r, run fuel heap rules e = .ok r ∧ r.Nodup ∧ ∀ o, o ∈ r ↔ o ∈ rules ∧ Meaning c (heap o) := by
  obtain ⟨e, h1, h2⟩ := C15_filter_never_fails c hok
  refine ⟨e, ?_, h2⟩
  rw [parse_read hg hc ht hn, h1]

/-- **C73**, filters of any shape: the text is accepted exactly when the semantic actions accept the filter, and raises their
exception otherwise. -/
theorem C73_filter_text_value (g : Guard) (hg : NameGuard g) (c : Chain) (ws : List Word) (t : List Char) (n : Nat)
    (hc : ChainWords c ws) (ht : Written ws t) (hn : chainDepth c ≤ n) :
    (∀ e, parsed c = .ok e → parse g n t = .ok e []) ∧ (∀ x, parsed c = .error x → parse g n t = .raise x) := by
  have := parse_read hg hc ht hn
  exact ⟨fun e h => by rw [this, h], fun x h => by rw [this, h]⟩

/-- **C74**: whatever text is accepted, it consists of the words of a filter in their order, with nothing but white space
between them, and the result is that filter: if it is of a shape that can be run, it selects exactly what the filter means. -/
theorem C74_accepted_text_is_a_filter (g : Guard) (n : Nat) (t r : List Char) (e : Expr) (h : parse g n t = .ok e r) :
    ∃ c ws, ChainOf AnyBody c ws ∧ Loose ws t ∧ parsed c = .ok e ∧
      (ChainOk c → ∀ (heap : Oid → Entry) (rules : List Oid) (D fuel : Nat),
        (∀ o ∈ rules, EntryOk (heap o)) → (∀ o ∈ rules, EntryDepth D (heap o)) → e.height + 3 + D + 5 ≤ fuel →
        ∃ r, run fuel heap rules e = .ok r ∧ r.Nodup ∧ ∀ o, o ∈ r ↔ o ∈ rules ∧ Meaning c (heap o)) := by
  obtain ⟨c, ws, h1, h2, h3⟩ := parse_inv h
  refine ⟨c, ws, h1, h2, h3, ?_⟩
  intro hok
  obtain ⟨e', h4, h5⟩ := C15_filter_never_fails c hok
  rw [h3] at h4
  cases h4
  exact h5

/-! ## comments -/

theorem addrs_bare (d : Dir) : ∀ objs : Items, addrs d (bareItems objs) = addrs d objs
  | .nil => rfl
  | .comment r => by rw [bareItems, addrs]; exact addrs_bare d r
  | .ip d' nets r => by rw [bareItems, addrs, addrs, addrs_bare d r]
  | .paren c r => by rw [bareItems, addrs, addrs]; exact addrs_bare d r

mutual
theorem chainSel_bare : ∀ (c : Chain) (p q : (Entry → Prop) → Entry → Prop), chainSel (bareChain c) p q = chainSel c p q
  | .one s, p, q => by rw [bareChain, chainSel, chainSel, setSel_bare s]
  | .more s o c, p, q => by
    rw [bareChain]
    cases o <;> rw [chainSel, chainSel] <;> simp only [setSel_bare s, chainSel_bare c]
theorem setSel_bare : ∀ s : SetSyn, setSel (bareSet s) = setSel s
  | .mk id objs => by
    rw [bareSet, setSel, setSel, parenSel_bare objs]
    simp only [addrs_bare]
theorem parenSel_bare : ∀ objs : Items, parenSel (bareItems objs) = parenSel objs
  | .nil => rfl
  | .comment r => by rw [bareItems, parenSel]; exact parenSel_bare r
  | .ip d nets r => by rw [bareItems, parenSel, parenSel]; exact parenSel_bare r
  | .paren c r => by rw [bareItems, parenSel, parenSel, chainSel_bare c]
end

/-- **C75 (comments do not matter), the part that holds**: two texts of the same filter up to comments, with comments in
front of and between the clauses and operands and set off as required, are both accepted and select the same rules. -/
theorem C75_comments_partial (g : Guard) (hg : NameGuard g) (c c' : Chain) (ws ws' : List Word) (t t' : List Char) (n : Nat)
    (hc : ChainWords c ws) (hc' : ChainWords c' ws') (ht : Written ws t) (ht' : Written ws' t')
    (hok : ChainOk c) (hok' : ChainOk c') (hn : chainDepth c ≤ n) (hn' : chainDepth c' ≤ n) (hb : bareChain c = bareChain c') :
    ∃ e e', parse g n t = .ok e [] ∧ parse g n t' = .ok e' [] ∧
      ∀ (heap : Oid → Entry) (rules : List Oid) (D fuel : Nat),
        (∀ o ∈ rules, EntryOk (heap o)) → (∀ o ∈ rules, EntryDepth D (heap o)) → max e.height e'.height + 3 + D + 5 ≤ fuel →
        ∃ r r', run fuel heap rules e = .ok r ∧ run fuel heap rules e' = .ok r' ∧ ∀ o, o ∈ r ↔ o ∈ r' := by
  obtain ⟨e, h1, h2⟩ := C73_filter_text_selects g hg c ws t n hc ht hok hn
  obtain ⟨e', h1', h2'⟩ := C73_filter_text_selects g hg c' ws' t' n hc' ht' hok' hn'
  refine ⟨e, e', h1, h1', ?_⟩
  intro heap rules D fuel ho hd hf
  obtain ⟨r, i1, -, i2⟩ := h2 heap rules D fuel ho hd (by omega)
  obtain ⟨r', i1', -, i2'⟩ := h2' heap rules D fuel ho hd (by omega)
  refine ⟨r, r', i1, i1', ?_⟩
  intro o
  have : Meaning c = Meaning c' := by
    unfold Meaning
    rw [← chainSel_bare c, ← chainSel_bare c', hb]
  rw [i2, i2', this]

/-! ## the sample -/

theorem tatsuGuard_caf : NameGuard tatsuGuard where
  passes := by intro n c t h; simp [tatsuGuard, h]
  ends := by intro n; simp [tatsuGuard]
  refuses := by
    rintro n c t - h hc
    have : n.toList.all Char.isAlphanum = true := by rw [List.all_eq_true]; exact h
    simp [tatsuGuard, this, hc]
  symbols := by
    rintro n t ⟨d, hd, hd'⟩
    unfold tatsuGuard
    have : n.toList.all Char.isAlphanum = false := by
      rw [List.all_eq_false]; exact ⟨d, hd, by simp [hd']⟩
    simp [this]

/-- A filter text. -/
def sampleText : List Char := "/* lab */ ip src 10.0.0.0/8\n except (id outside /* or */ union ip dst ANY any6)\n".toList

/-- Its filter. -/
def sampleChain : Chain :=
  .more (.mk none (.ip .src [.net ⟨.v4, 0x0A000000, 8⟩] .nil)) .except
    (.one (.mk none (.paren (.more (.mk (some (String.ofList "outside".toList)) (.comment .nil)) .union
      (.one (.mk none (.ip .dst [.cafAny, .any6] .nil)))) .nil)))

/-- Its words. -/
def sampleWords : List Word :=
  [.comment " lab ".toList] ++ ([] ++ (.key "ip" :: .key "src" :: ([.network "10.0.0.0/8".toList] ++ []))) ++ .key "except" ::
    ([] ++ ([] ++ (.key "(" :: (([] ++ ([.key "id", .id "outside".toList] ++ [.comment " or ".toList]) ++ .key "union" ::
      ([] ++ ([] ++ (.key "ip" :: .key "dst" :: ([.network "ANY".toList, .network "any6".toList] ++ []))))) ++ .key ")" :: []))))

theorem body_of {b : List Char} (h : (List.range (b.length + 1)).all (fun i => (b ++ ['*', '/']).drop i |> fun s => match s with
    | '*' :: '/' :: [] => true | '*' :: '/' :: _ => false | _ => true) = true) (h2 : b.getLast? ≠ some '*') : CommentBody b := by
  refine ⟨?_, by rintro c hc rfl; exact h2 hc⟩
  intro pre post e
  have hl := congrArg List.length e
  simp at hl
  have := List.all_eq_true.1 h pre.length (by rw [List.mem_range]; omega)
  rw [e] at this
  simp only [List.drop_left] at this
  cases post with
  | nil => rfl
  | cons => simp at this

theorem sampleWords_chain : ChainWords sampleChain sampleWords := by
  refine .more _ .except _ _ _ (.mk none _ _ _ _ (.cons _ _ (body_of (by decide) (by decide)) .nil) .none
    (.ip .src _ _ _ _ (.one _ _ ?_) .nil)) (.one _ _ (.mk none _ [] [] _ .nil .none (.paren _ _ _ _ ?_ .nil)))
  · refine .net "10.0.0.0".toList [] [] "8".toList ⟨.v4, 0x0A000000⟩ 8 _ ?_ (by simp) (by simp) (by decide) (by decide) ?_ ?_
    · have : "10.0.0.0".toList = Dotted 0x0A000000 := by decide +kernel
      rw [this]; exact .v4 _ (by decide)
    · exact makeNetmask_iff.1 (by decide +kernel)
    · have h1 : ipAddress "10.0.0.0".toList = .ok ⟨.v4, 0x0A000000⟩ := by decide +kernel
      have h2 : mkNetwork "10.0.0.0".toList "8".toList = .ok ⟨.v4, 0x0A000000, 8⟩ := by decide +kernel
      obtain ⟨net, i1, i2, i3, i4, i5⟩ := C19_network_denotes _ "8".toList _ 8 h1 (makeNetmask_iff.1 (by decide +kernel))
      rw [h2] at i1
      cases i1
      exact ⟨i2, i3, i4, i5⟩
  · refine .more _ .union _ _ _ (.mk _ _ [] _ _ .nil (.some _ ⟨by decide, by decide +kernel⟩) (.comment _ _ _ (body_of (by decide) (by decide)) .nil))
      (.one _ _ (.mk none _ [] [] _ .nil .none (.ip .dst _ _ _ _ (.cons _ _ _ _ .ANY (.one _ _ .any6)) .nil)))

/-- What may follow a network or a keyword, for samples. -/
def tailB : List Char → Bool
  | [] => true
  | '/' :: '*' :: _ => true
  | c :: _ => isSpace c || c == '(' || c == ')'

/-- A check of `Apart`, for samples. -/
def apartB : Word → List Char → Bool
  | .comment _, _ => true
  | .key s, t => s == "(" || s == ")" || tailB t
  | .network _, t => tailB t
  | .id _, t => tailB t && t.head? != some '/'

theorem apartB_sound {w : Word} {t : List Char} (h : apartB w t = true) : Apart w t := by
  have go : tailB t = true → ((∀ x, w ≠ .id x) ∨ t.head? ≠ some '/') →
      (∀ c ∈ t.head?, isSpace c = true ∨ c = '(' ∨ c = ')' ∨ (c = '/' ∧ (∃ u, t = '/' :: '*' :: u) ∧ ∀ x, w ≠ .id x)) := by
    intro h hw c hc
    unfold tailB at h
    split at h
    · simp at hc
    · simp at hc; subst hc
      rcases hw with hw | hw
      · exact Or.inr (Or.inr (Or.inr ⟨rfl, ⟨_, rfl⟩, hw⟩))
      · simp at hw
    · simp at hc; subst hc
      simp only [Bool.or_eq_true, beq_iff_eq] at h
      rcases h with (h | h) | h
      · exact Or.inl h
      · exact Or.inr (Or.inl h)
      · exact Or.inr (Or.inr (Or.inl h))
  cases w with
  | comment b => simp [Apart]
  | network w => exact go h (by simp)
  | id w =>
    simp only [apartB, Bool.and_eq_true, bne_iff_ne] at h
    exact go h.1 (Or.inr h.2)
  | key s =>
    simp only [apartB, Bool.or_eq_true, beq_iff_eq] at h
    by_cases h1 : s = "("
    · subst h1; simp [Apart]
    by_cases h2 : s = ")"
    · subst h2; simp [Apart]
    have := go (by simpa [h1, h2] using h) (by simp)
    unfold Apart
    split <;> first | trivial | exact this

/-- A check of `Written` with the given numbers of white characters, for samples. -/
def writtenB : List Word → List Char → Bool
  | [], t => t.all isSpace
  | w :: ws, t =>
    let u := t.dropWhile isSpace
    let v := u.drop w.text.length
    w.text.isPrefixOf u && (match w.text with | [] => false | c :: _ => !isSpace c) && apartB w v && writtenB ws v

theorem writtenB_sound : ∀ (ws : List Word) (t : List Char), writtenB ws t = true → Written ws t
  | [], t, h => .nil t (by simpa [writtenB] using h)
  | w :: ws, t, h => by
    simp only [writtenB, Bool.and_eq_true] at h
    obtain ⟨⟨⟨h1, h2⟩, h3⟩, h4⟩ := h
    obtain ⟨b, e, hb⟩ := drop_split t
    rw [List.isPrefixOf_iff_prefix] at h1
    obtain ⟨v, hv⟩ := h1
    rw [e, ← hv]
    rw [← hv, List.drop_left] at h3 h4
    refine .cons b w ws v hb (writtenB_sound ws v h4) ?_ (apartB_sound h3)
    unfold Proper
    split at h2
    · cases h2
    · rename_i c u hw; exact ⟨c, u, hw, by simpa using h2⟩

theorem sampleChain_ok : ChainOk sampleChain := by
  simp only [sampleChain, ChainOk, SetOk, ItemsOk, numParens, numIps]
  refine ⟨⟨⟨by simp, ?_, trivial⟩, saneId_none, by simp⟩, ⟨⟨⟨trivial, Sample.saneId_outside, by simp⟩,
    ⟨by simp, ?_, trivial⟩, saneId_none, by simp⟩, trivial⟩, saneId_none, by simp⟩
  · intro h hh; simp at hh; subst hh; constructor
  · intro h hh; simp at hh; rcases hh with rfl | rfl <;> constructor

/-- The hypotheses of C73 are met by a text with comments, parentheses and all kinds of words. -/
theorem C73_sample : ∃ e, parse tatsuGuard 4 sampleText = .ok e [] ∧
    ∀ (heap : Oid → Entry) (rules : List Oid) (D fuel : Nat),
      (∀ o ∈ rules, EntryOk (heap o)) → (∀ o ∈ rules, EntryDepth D (heap o)) → e.height + 3 + D + 5 ≤ fuel →
      ∃ r, run fuel heap rules e = .ok r ∧ r.Nodup ∧ ∀ o, o ∈ r ↔ o ∈ rules ∧ Meaning sampleChain (heap o) := by
  refine C73_filter_text_selects tatsuGuard tatsuGuard_caf sampleChain sampleWords sampleText 4 sampleWords_chain
    (writtenB_sound _ _ (by decide +kernel)) sampleChain_ok (by decide)

/-! ## where the language is not what it seems -/

/-- **C75, violated**: a comment directly behind an id is taken as part of the id pattern, in every such text. -/
theorem C75_violated (g : Guard) (hg : NameGuard g) (n : Nat) (w b : List Char) (hw : IdText w)
    (hb : ∀ c ∈ b, c.isAlphanum = true ∨ c ∈ "_-.?*[]!/".toList) :
    parse g (n + 1) ("id ".toList ++ (w ++ ('/' :: '*' :: (b ++ ['*', '/'])))) =
      .ok (.block (.rule { id := some (String.ofList (w ++ '/' :: '*' :: (b ++ ['*', '/']))), src := ⟨.any, none⟩, dst := ⟨.any, none⟩ })) [] := by
  have hid : IdText (w ++ '/' :: '*' :: (b ++ ['*', '/'])) := by
    refine ⟨by simp, ?_⟩
    intro c hc
    simp only [List.mem_append, List.mem_cons, List.not_mem_nil, or_false] at hc
    rcases hc with hc | rfl | rfl | hc | rfl | rfl
    · exact hw.2 c hc
    · exact Or.inr (by decide)
    · exact Or.inr (by decide)
    · exact hb c hc
    · exact Or.inr (by decide)
    · exact Or.inr (by decide)
  have hp : Proper (.id (w ++ '/' :: '*' :: (b ++ ['*', '/']))) := by
    obtain ⟨c, u, e⟩ := List.exists_cons_of_ne_nil hid.1
    refine ⟨c, u, e, ?_⟩
    rw [Bool.eq_false_iff]
    intro hs
    have h1 := hid.2 c (by rw [e]; simp)
    rcases h1 with h1 | h1
    · rw [space_not_alnum hs] at h1; cases h1
    · have : ∀ c ∈ "_-.?*[]!/".toList, isSpace c = false := by decide +kernel
      rw [this c h1] at hs; cases hs
  have := parse_read (n := n + 1) (t := "id ".toList ++ (w ++ ('/' :: '*' :: (b ++ ['*', '/'])))) hg
    (ChainOf.one _ _ (.mk (some (String.ofList (w ++ '/' :: '*' :: (b ++ ['*', '/'])))) .nil [] _ [] .nil (.some _ hid) .nil) : ChainWords _ _)
    (by
      have := Written.cons [] (.key "id") [.id (w ++ '/' :: '*' :: (b ++ ['*', '/']))] (' ' :: (w ++ '/' :: '*' :: (b ++ ['*', '/'])) ++ [])
        (by simp) (Written.cons [' '] (.id (w ++ '/' :: '*' :: (b ++ ['*', '/']))) [] [] (by decide) (.nil [] (by simp)) hp (by intro c hc; simp at hc))
        ⟨'i', ['d'], rfl, by decide⟩ (by intro c hc; simp at hc; subst hc; exact Or.inl (by decide))
      simpa [Word.text] using this)
    (by simp [chainDepth, setDepth, itemsDepth])
  rw [this]
  simp [parsed, chainItems, setVal, itemVals, setSem, collectIps, dirNode, exprSem_one]

/-- The text is refused, as a check. -/
def isFail : Res Expr → Bool
  | .fail => true
  | _ => false

theorem isFail_sound {x : Res Expr} (h : isFail x = true) : x = .fail := by
  cases x <;> simp [isFail] at h ⊢

/-- **C75, violated**: no comment may stand inside an `ip` clause. -/
theorem C75_violated_clause : parse tatsuGuard 3 "ip /* to the lab */ src any".toList = .fail :=
  isFail_sound (by decide +kernel)

/-- The two source addresses of a filter, as a check. -/
def twoSources : Res Expr → Option (Addr × Addr)
  | .ok (.block (.rule r)) [] =>
    match r.src.host with
    | .group "" [.host a, .host b] => some (a, b)
    | _ => none
  | _ => none

theorem twoSources_sound {x : Res Expr} {a b : Addr} (h : twoSources x = some (a, b)) :
    ∃ r : Rule, x = .ok (.block (.rule r)) [] ∧ r.src.host = .group "" [.host a, .host b] := by
  unfold twoSources at h
  split at h
  · rename_i r
    split at h
    · rename_i hs; cases h; exact ⟨r, rfl, hs⟩
    · cases h
  · cases h

/-- **C76 (unseparated words are refused), violated**: an address of seven numbers is read as two addresses. -/
theorem C76_violated : ∃ r : Rule, parse tatsuGuard 3 "ip src 192.168.1.25510.0.0.1".toList = .ok (.block (.rule r)) [] ∧
    r.src.host = .group "" [.host ⟨.v4, 0xC0A801FF⟩, .host ⟨.v4, 0x0A000001⟩] :=
  twoSources_sound (by decide +kernel)

end Acltk.CafText
