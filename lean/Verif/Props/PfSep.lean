import Verif.Spec.PfSepSpec
import Verif.Props.Pfsense
/-!
# C48: pfSense separators
-/
namespace Acltk.Pf
open Acltk

theorem snocInd {α : Type} {P : List α → Prop} (nil : P []) (snoc : ∀ l x, P l → P (l ++ [x])) :
    ∀ l, P l := by
  intro l
  rw [← List.reverse_reverse l]
  induction l.reverse with
  | nil => exact nil
  | cons x xs ih => rw [List.reverse_cons]; exact snoc _ _ ih

theorem childVals_get (e : Elem) (k : String) : dGet (childVals e) k = (lastChild e k).map Elem.text := by
  unfold childVals lastChild
  generalize e.children = l
  induction l using snocInd with
  | nil => rfl
  | snoc l x ih =>
    rw [List.foldl_append, List.filter_append]
    simp only [List.foldl_cons, List.foldl_nil, dGet_dSet, List.filter_cons, List.filter_nil, beq_iff_eq]
    by_cases h : x.tag = k
    · simp [h]
    · simp [h, Ne.symm h, ih]

theorem need_ok {e : Elem} {k : String} {x : Option String} :
    need (childVals e) k = .ok x ↔ ∃ c, lastChild e k = some c ∧ c.text = x := by
  unfold need
  rw [childVals_get]
  cases lastChild e k <;> simp

/-- A separator that is read says what its children say. -/
theorem parseSep_means {T : Type} {v : Env T} {t : Tables} {e : Elem} {x : Option String × Int × Caption} :
    parseSep v t e = .ok x ↔ SepMeans v t e x := by
  unfold parseSep
  constructor
  · intro h
    split at h
    · cases h
    · rename_i n hn
      simp only [bind_ok, need_ok] at h
      obtain ⟨i, ⟨ci, hi, rfl⟩, r, ⟨cr, hr, rfl⟩, h⟩ := h
      split at h
      · cases h
      · rename_i rt hrt
        split at h
        · cases h
        · rename_i row hrow
          simp only [bind_ok, need_ok] at h
          obtain ⟨c, ⟨cc, hcc, rfl⟩, tx, ⟨ct, hct, rfl⟩, s, hs, h⟩ := h
          cases hts : ct.text with
          | none => rw [hts] at hs; cases hs
          | some s' =>
            rw [hts] at hs
            cases hs
            cases h
            exact .mk n row ci cr cc ct rt s' hn hi hr hcc hct hrt hrow hts
  · rintro ⟨n, row, ci, cr, cc, ct, r, s, hn, hi, hr, hcc, hct, hrt, hrow, hts⟩
    have e1 : need (childVals e) "if" = .ok ci.text := need_ok.2 ⟨ci, hi, rfl⟩
    have e2 : need (childVals e) "row" = .ok (some r) := need_ok.2 ⟨cr, hr, hrt⟩
    have e3 : need (childVals e) "color" = .ok cc.text := need_ok.2 ⟨cc, hcc, rfl⟩
    have e4 : need (childVals e) "text" = .ok (some s) := need_ok.2 ⟨ct, hct, hts⟩
    simp [hn, e1, e2, e3, e4, hrow, bind, Except.bind, Env.unescape]

/-! ## the dictionary of separators -/

/-- `separators[id][row]`, if there is one -/
def look (s : Seps) (id : Option String) (row : Int) : Option (List Caption) :=
  (dGet s id).bind (fun rows => dGet rows row)

theorem look_addSep (s : Seps) (x : Option String × Int × Caption) (id : Option String) (row : Int) :
    look (addSep s x) id row =
      if id = x.1 ∧ row = x.2.1 then some ((look s id row).getD [] ++ [x.2.2]) else look s id row := by
  unfold look addSep
  by_cases h1 : id = x.1
  · subst h1
    simp only [dGet_dSet, if_true, Option.bind_some, true_and]
    by_cases h2 : row = x.2.1
    · subst h2
      simp only [if_true]
      cases dGet s x.1 <;> simp [dGet]
    · simp only [h2, if_false]
      cases dGet s x.1 <;> simp [dGet]
  · simp [dGet_dSet, h1]

theorem look_collect (l : List (Option String × Int × Caption)) (id : Option String) (row : Nat) :
    look (l.foldl addSep []) id row = if captionsAt l id row = [] then none else some (captionsAt l id row) := by
  induction l using snocInd with
  | nil => rfl
  | snoc l x ih =>
    rw [List.foldl_append]
    simp only [List.foldl_cons, List.foldl_nil, look_addSep, ih]
    have hc : captionsAt (l ++ [x]) id row =
        captionsAt l id row ++ if id = x.1 ∧ (row : Int) = x.2.1 then [x.2.2] else [] := by
      unfold captionsAt
      rw [List.filter_append, List.map_append]
      congr 1
      by_cases h1 : id = x.1
      · by_cases h2 : (row : Int) = x.2.1
        · simp [h1, h2]
        · have : ¬ x.2.1 = (row : Int) := fun e => h2 e.symm
          simp [h2, this]
      · have : ¬ x.1 = id := fun e => h1 e.symm
        simp [h1, this]
    rw [hc]
    by_cases h : id = x.1 ∧ (row : Int) = x.2.1
    · rw [if_pos h, if_pos h]
      by_cases h0 : captionsAt l id row = [] <;> simp [h0]
    · simp only [h, if_false, List.append_nil]

/-! ## the loop over the rules -/

/-- The number of elements equal to `x` at the end of a list. -/
def runLen (pr : List (Option String)) (x : Option String) : Nat :=
  (pr.reverse.takeWhile (fun y => y == x)).length

theorem runLen_snoc (pr : List (Option String)) (x y : Option String) :
    runLen (pr ++ [x]) y = if x = y then runLen pr y + 1 else 0 := by
  unfold runLen
  rw [List.reverse_append]
  by_cases h : x = y <;> simp [h]

/-- A rule with the head the separators give it. -/
def headed {T : Type} (s : Seps) (row : Nat) (r : PfRule T) : PfRule T :=
  match look s r.id row with
  | none => r
  | some caps => { r with head := some caps }

/-- The loop without counters. -/
def headList {T : Type} (s : Seps) : List (Option String) → List (PfRule T) → List (PfRule T)
  | _, [] => []
  | pr, r :: rs => headed s (runLen pr r.id) r :: headList s (pr ++ [r.id]) rs

theorem sepLoop_eq {T : Type} (s : Seps) (rs : List (PfRule T)) : ∀ (pr : List (Option String))
    (ifname : Option String) (last idx : Nat), last ≤ idx → idx - last = runLen pr ifname →
    (∀ x, x ≠ ifname → runLen pr x = 0) → sepLoop s ifname last idx rs = headList s pr rs := by
  induction rs with
  | nil => intros; rfl
  | cons r rs ih =>
    intro pr ifname last idx h1 h2 h3
    simp only [sepLoop, headList]
    have hrun : idx - (if r.id ≠ ifname then idx else last) = runLen pr r.id := by
      by_cases hi : r.id = ifname
      · simp [hi, h2]
      · simp [hi, h3 r.id hi]
    have hle : (if r.id ≠ ifname then idx else last) ≤ idx := by split <;> omega
    congr 1
    · unfold headed look
      rw [hrun]
      cases dGet s r.id with
      | none => rfl
      | some rows => rfl
    · apply ih
      · omega
      · rw [runLen_snoc, if_pos rfl, ← hrun]; omega
      · intro x hx
        rw [runLen_snoc, if_neg (Ne.symm hx)]

theorem headList_ids {T : Type} (s : Seps) (rs : List (PfRule T)) : ∀ pr,
    (headList s pr rs).map (·.id) = rs.map (·.id) := by
  induction rs with
  | nil => intro pr; rfl
  | cons r rs ih =>
    intro pr
    simp only [headList, List.map_cons, ih]
    congr 1
    unfold headed
    split <;> rfl

theorem headList_get {T : Type} (s : Seps) (rs : List (PfRule T)) : ∀ pr (j : Nat),
    (headList s pr rs)[j]? = rs[j]?.map (fun r => headed s (runLen (pr ++ (rs.take j).map (·.id)) r.id) r) := by
  induction rs with
  | nil => intro pr j; simp [headList]
  | cons r rs ih =>
    intro pr j
    cases j with
    | zero => simp [headList]
    | succ j => simp [headList, ih]

theorem runIndex_eq {T : Type} (rs : List (PfRule T)) (j : Nat) (r : PfRule T) (h : rs[j]? = some r) :
    runIndex (rs.map (·.id)) j = runLen ((rs.take j).map (·.id)) r.id := by
  unfold runIndex runLen
  simp only [List.getElem?_map, h, Option.map_some, ← List.map_take]
  congr 1

/-- The whole loop, rule by rule. -/
theorem sepLoop_get {T : Type} (s : Seps) (rs : List (PfRule T)) (j : Nat) :
    (sepLoop s none 0 0 rs)[j]? = rs[j]?.map (fun r => headed s (runIndex (rs.map (·.id)) j) r) := by
  rw [sepLoop_eq s rs [] none 0 0 (by omega) rfl (fun x _ => rfl), headList_get]
  cases h : rs[j]? with
  | none => rfl
  | some r => simp [runIndex_eq rs j r h]

theorem sepLoop_ids {T : Type} (s : Seps) (rs : List (PfRule T)) :
    (sepLoop s none 0 0 rs).map (·.id) = rs.map (·.id) := by
  rw [sepLoop_eq s rs [] none 0 0 (by omega) rfl (fun x _ => rfl), headList_ids]

/-! ## the filter element -/

theorem filterLoop_append {T : Type} (v : Env T) (t : Tables) (l m : List Elem) : ∀ rules,
    filterLoop v t rules (l ++ m) = (filterLoop v t rules l >>= fun r => filterLoop v t r m) := by
  induction l with
  | nil => intro rules; rfl
  | cons c cs ih =>
    intro rules
    simp only [List.cons_append, filterLoop]
    split
    · cases parseRule v t c with
      | error e => rfl
      | ok r => simp only [bind, Except.bind]; exact ih _
    · split
      · cases collectSeps v t c with
        | error e => rfl
        | ok s => simp only [bind, Except.bind]; exact ih _
      · rfl

theorem collectSeps_ok {T : Type} {v : Env T} {t : Tables} {e : Elem} {s : Seps}
    (h : collectSeps v t e = .ok s) :
    ∃ l, mapPy (parseSep v t) (e.children.flatMap Elem.children) = .ok l ∧ s = l.foldl addSep [] := by
  unfold collectSeps at h
  rw [bind_ok] at h
  obtain ⟨l, h1, h2⟩ := h
  cases h2
  exact ⟨l, h1, rfl⟩

theorem runIndex_append (ids : List (Option String)) (x : Option String) (j : Nat) (h : j < ids.length) :
    runIndex (ids ++ [x]) j = runIndex ids j := by
  unfold runIndex
  rw [List.take_append_of_le_length (by omega), List.getElem?_append_left h]

theorem rules_count {T : Type} (v : Env T) (t : Tables) (l : List Elem) : ∀ (out : List (PfRule T)),
    filterLoop v t [] l = .ok out → out.length = (tagged "rule" l).length := by
  induction l using snocInd with
  | nil => intro out h; cases h; rfl
  | snoc l x ih =>
    intro out h
    rw [filterLoop_append, bind_ok] at h
    obtain ⟨mid, h1, h2⟩ := h
    have hm := ih mid h1
    rw [tagged_append, List.length_append, ← hm]
    simp only [filterLoop] at h2
    split at h2
    · rename_i hx
      rw [bind_ok] at h2
      obtain ⟨r, -, h3⟩ := h2
      cases h3
      simp [tagged, hx]
    · rename_i hx
      split at h2
      · rw [bind_ok] at h2
        obtain ⟨s, -, h3⟩ := h2
        cases h3
        have := congrArg List.length (sepLoop_ids s mid)
        simp only [List.length_map] at this
        simp [tagged, hx, this]
      · cases h2

/-- **C48.** The rules of a filter element are its rule children in order; the head of a rule is the
list of captions that the separators behind it have for the row the rule has within its run of
consecutive rules of one list, and there is no head when there are none. -/
theorem C48_separators {T : Type} (v : Env T) (t : Tables) (l : List Elem) (out : List (PfRule T))
    (h : filterLoop v t [] l = .ok out) :
    out.length = (l.filter (fun c => c.tag == "rule")).length ∧
    ∀ pre c post, l = pre ++ c :: post → c.tag = "rule" →
      ∃ r0, parseRule v t c = .ok r0 ∧
        out[(pre.filter (fun c => c.tag == "rule")).length]? = some { r0 with
          head := headOf v t (post.filter (fun c => c.tag == "separator")) r0.id
            (runIndex (out.map (·.id)) (pre.filter (fun c => c.tag == "rule")).length) } := by
  refine ⟨rules_count v t l out h, ?_⟩
  revert out
  induction l using snocInd with
  | nil => intro out h pre c post he; simp at he
  | snoc l x ih =>
    intro out h pre c post he hc
    rw [filterLoop_append, bind_ok] at h
    obtain ⟨mid, h1, h2⟩ := h
    have hlen := rules_count v t l mid h1
    rcases List.eq_nil_or_concat post with rfl | ⟨post', y, rfl⟩
    · -- the rule is the last child
      have hx : l = pre ∧ x = c := by
        have := List.append_inj' (t₁ := [x]) (t₂ := [c]) (s₁ := l) (s₂ := pre) (by simpa using he) rfl
        exact ⟨this.1, by simpa using this.2⟩
      obtain ⟨rfl, rfl⟩ := hx
      simp only [filterLoop, hc, if_true, bind_ok] at h2
      obtain ⟨r, hr, h3⟩ := h2
      cases h3
      refine ⟨r, hr, ?_⟩
      have hl : (l.filter (fun c => c.tag == "rule")).length = mid.length := hlen.symm
      rw [hl]
      have hh : r.head = none := by
        unfold parseRule at hr
        rw [bind_ok] at hr
        obtain ⟨s, -, hr⟩ := hr
        exact (finishRule_ok hr).head
      simp [headOf, ← hh]
    · -- the rule is earlier
      have hx : l = pre ++ c :: post' ∧ x = y := by
        have := List.append_inj' (t₁ := [x]) (t₂ := [y]) (s₁ := l) (s₂ := pre ++ c :: post')
          (by simpa using he) rfl
        exact ⟨this.1, by simpa using this.2⟩
      obtain ⟨hl, rfl⟩ := hx
      obtain ⟨r0, g1, g2⟩ := ih mid h1 pre c post' hl hc
      refine ⟨r0, g1, ?_⟩
      generalize hj : (pre.filter (fun c => c.tag == "rule")).length = j at g2 ⊢
      have hjl : j < mid.length := by
        rcases Nat.lt_or_ge j mid.length with h | h
        · exact h
        · rw [List.getElem?_eq_none h] at g2; cases g2
      simp only [filterLoop] at h2
      split at h2
      · rename_i hx
        rw [bind_ok] at h2
        obtain ⟨r, -, h3⟩ := h2
        cases h3
        rw [List.getElem?_append_left hjl, g2, List.concat_eq_append, List.filter_append]
        simp only [List.map_append, List.map_cons, List.map_nil]
        rw [runIndex_append _ _ _ (by simpa using hjl)]
        simp [hx]
      · split at h2
        · rename_i hx hs
          rw [bind_ok] at h2
          obtain ⟨s, hs', h3⟩ := h2
          cases h3
          obtain ⟨sl, k1, rfl⟩ := collectSeps_ok hs'
          rw [sepLoop_get, sepLoop_ids, g2, List.concat_eq_append, List.filter_append]
          simp only [Option.map_some, Option.some.injEq]
          unfold headed
          rw [look_collect]
          simp only [List.filter_cons, hs, beq_self_eq_true, if_true, List.filter_nil]
          unfold headOf
          rw [List.filterMap_append]
          simp only [List.filterMap_cons, k1, List.filterMap_nil]
          split
          · rename_i hn
            split at hn
            · rename_i hcap; simp [hcap]
            · cases hn
          · rename_i caps hn
            split at hn
            · cases hn
            · rename_i hcap
              cases hn
              simp [hcap]
        · cases h2

/-- The rules of each list stand together. -/
def Contiguous (ids : List (Option String)) : Prop :=
  ∀ i k j : Nat, i < k → k < j → j < ids.length → ids[i]? = ids[j]? → ids[k]? = ids[j]?

theorem takeWhile_full {α : Type} (p : α → Bool) (l : List α)
    (h : ∀ pre x post, l = pre ++ x :: post → p x = false → ∀ y ∈ post, p y = false) :
    (l.takeWhile p).length = (l.filter p).length := by
  induction l with
  | nil => rfl
  | cons x xs ih =>
    by_cases hx : p x = true
    · simp only [List.takeWhile_cons, hx, if_true, List.length_cons, List.filter_cons]
      rw [ih]
      intro pre y post he hy z hz
      exact h (x :: pre) y post (by rw [he]; rfl) hy z hz
    · simp only [Bool.not_eq_true] at hx
      have := h [] x xs rfl hx
      have hf : xs.filter p = [] := by
        rw [List.filter_eq_nil_iff]
        intro y hy
        simp [this y hy]
      simp [List.takeWhile_cons, hx, hf]

/-- When the rules of each list stand together, the row of a rule is the number of rules of its list
before it. -/
theorem C48_row_number (ids : List (Option String)) (hc : Contiguous ids) (j : Nat) (hj : j < ids.length) :
    runIndex ids j = ((ids.take j).filter (fun x => some x == ids[j]?)).length := by
  unfold runIndex
  rw [takeWhile_full]
  · rw [List.filter_reverse, List.length_reverse]
  · intro pre x post he hx y hy
    -- positions: post lies before x in the original list
    have he' : ids.take j = post.reverse ++ x :: pre.reverse := by
      have := congrArg List.reverse he
      simpa using this
    have hlen : (ids.take j).length = j := by simp; omega
    rw [he'] at hlen
    simp only [List.length_append, List.length_reverse, List.length_cons] at hlen
    obtain ⟨i, hi, hyi⟩ := List.mem_iff_getElem.1 (List.mem_reverse.2 hy)
    have hi' : i < post.length := by simpa using hi
    have e1 : ids[i]? = some y := by
      have : (ids.take j)[i]? = some y := by
        rw [he', List.getElem?_append_left (by simpa using hi'), List.getElem?_eq_getElem hi, hyi]
      rw [List.getElem?_take] at this
      simpa [show i < j by omega] using this
    have e2 : ids[post.length]? = some x := by
      have : (ids.take j)[post.length]? = some x := by
        rw [he', List.getElem?_append_right (by simp)]
        simp
      rw [List.getElem?_take] at this
      simpa [show post.length < j by omega] using this
    simp only [beq_eq_false_iff_ne, ne_eq] at hx ⊢
    intro hyj
    apply hx
    rw [← e2]
    exact hc i post.length j hi' (by omega) hj (by rw [e1]; exact hyj)

/-- … so a row of a list belongs to at most one rule: a separator becomes the head of no second
rule. -/
theorem C48_one_rule (ids : List (Option String)) (hc : Contiguous ids) (i j : Nat)
    (hi : i < ids.length) (hj : j < ids.length) (hid : ids[i]? = ids[j]?)
    (hrow : runIndex ids i = runIndex ids j) : i = j := by
  have key : ∀ i j : Nat, i < j → j < ids.length → ids[i]? = ids[j]? →
      runIndex ids i < runIndex ids j := by
    intro i j hij hj hid
    rw [C48_row_number ids hc i (by omega), C48_row_number ids hc j hj]
    have hsplit : ids.take j = ids.take i ++ (ids.drop i).take (j - i) := by
      rw [← List.take_add]; congr 1; omega
    rw [hsplit, List.filter_append, List.length_append, hid]
    have hmem : ids[i]'(by omega) ∈ ((ids.drop i).take (j - i)).filter (fun x => some x == ids[j]?) := by
      rw [List.mem_filter]
      refine ⟨?_, ?_⟩
      · rw [List.mem_iff_getElem]
        exact ⟨0, by simp; omega, by simp⟩
      · rw [← hid, List.getElem?_eq_getElem (by omega)]; simp
    have := List.length_pos_of_mem hmem
    omega
  rcases Nat.lt_trichotomy i j with h | h | h
  · have := key i j h hj hid; omega
  · exact h
  · have := key j i h hi hid.symm; omega

/-- A filter with three rules and separators for two of them. -/
def sampleFilter : List Elem :=
  let rule (i : String) : Elem := .mk "rule" none
    [leaf "type" (some "pass"), leaf "interface" (some i), leaf "descr" none]
  let sep (i row text : String) : Elem := .mk "sep0" none
    [leaf "row" (some row), leaf "text" (some text), leaf "color" (some "bg-info"), leaf "if" (some i)]
  [rule "lan", rule "opt1", rule "opt1",
   .mk "separator" none [.mk "opt1" none [sep "opt1" "fr1" "second"], .mk "lan" none [sep "lan" "fr0" "first"]]]

/-- The sample is accepted; the second rule of the optional interface gets its caption. -/
theorem C48_sample : ∃ out, filterLoop sampleEnv sampleTables [] sampleFilter = .ok out ∧
    out.map (·.head) = [some [⟨"first", some "bg-info"⟩], none, some [⟨"second", some "bg-info"⟩]] ∧
    out.map (·.id) = [some "lan", some "DMZ", some "DMZ"] :=
  ⟨_, rfl, rfl, rfl⟩

/-- … and its lists are contiguous. -/
theorem C48_sample_contiguous : Contiguous [some "lan", some "DMZ", some "DMZ"] := by
  intro i k j h1 h2 h3
  have : j < 3 := h3
  obtain ⟨rfl, rfl, rfl⟩ : i = 0 ∧ k = 1 ∧ j = 2 := by omega
  intro _
  rfl

end Acltk.Pf
