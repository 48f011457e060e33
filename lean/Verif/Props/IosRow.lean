import Verif.Lemmas.IosRowWords
import Verif.Props.Row
/-!
# C117: what the row of an IOS rule says
-/
namespace Acltk.Cells
open Acltk Acltk.AclText

/-- The columns without the options. -/
def ColumnsShown.whole (x : ColumnsShown) : RowShown := ⟨x.mode, x.protocol, x.src, x.sport, x.dst, x.dport, x.icmp, false, none, false⟩

theorem columns_iff (nm : Nat → String) (s t : Option String) {wild : Bool} (r : IosText.IRule) (hr : IosText.RowOk r) (h1 : Configured wild r.src.host) (h2 : Configured wild r.dst.host)
    (hn : IosNothingLost r) (x : ColumnsShown) : RowReads (row nm s t (asRule r)) x.whole ↔ RowIs nm (asRule r) x.whole :=
  C116_row_partial nm s t (asRule r) ⟨hr.src, hr.dst, hr.icmp, by exact ⟨by simp [asRule], by simp [asRule]⟩⟩ h1 h2 ⟨hn.icmp, hn.other, rfl⟩ x.whole

theorem whole_reads (nm : Nat → String) (s t : Option String) (r : IosText.IRule) (x : ColumnsShown) (o : String → List Char → Prop) :
    IosReads (iosRow nm s t r) x o ↔ RowReads (row nm s t (asRule r)) x.whole ∧ ∀ k v, o k v ↔ ':' ∉ k.toList ∧ Cell.text (k.toList ++ ':' :: v) ∈ iosOptionCells r.options := by
  have ho : (row nm s t (asRule r)).options = [] := by simp [row, asRule, optionCells, dGet]
  constructor
  · intro h
    exact ⟨⟨h.mode, h.protocol, h.src, h.sport, h.dst, h.icmp, h.port, by simp [ho, ColumnsShown.whole], by simp [ho, ColumnsShown.whole], by simp [ho, ColumnsShown.whole]⟩, h.options⟩
  · rintro ⟨h, h'⟩
    exact ⟨h.mode, h.protocol, h.src, h.sport, h.dst, h.icmp, h.port, h'⟩

theorem whole_is (nm : Nat → String) (r : IosText.IRule) (x : ColumnsShown) (o : String → List Char → Prop) :
    IosIs nm r x o ↔ RowIs nm (asRule r) x.whole ∧ ∀ k v, o k v ↔ (k, none) ∈ r.options ∧ v = "None".toList ∨ ∃ w, (k, some w) ∈ r.options ∧ v = w.toList := by
  constructor
  · intro h
    exact ⟨⟨h.mode, h.protocol, h.src, h.sport, h.dst, h.dport, h.icmp, by simp [asRule, ColumnsShown.whole], by simp [asRule, ColumnsShown.whole], by simp [asRule, ColumnsShown.whole]⟩, h.options⟩
  · rintro ⟨h, h'⟩
    exact ⟨h.mode, h.protocol, h.src, h.sport, h.dst, h.dport, h.icmp, h'⟩

theorem dGet_mem_text {d : Dict String (Option String)} (h : (d.map (·.1)).Nodup) (k : String) (o : Option String) : dGet d k = some o ↔ (k, o) ∈ d := by
  constructor
  · exact FwsmText.mem_dGet
  · induction d with
    | nil => intro hm; cases hm
    | cons p d ih =>
      obtain ⟨k', o'⟩ := p
      simp only [List.map_cons, List.nodup_cons] at h
      intro hm
      rcases List.mem_cons.1 hm with e | hm
      · cases e; simp [dGet]
      · have : k' ≠ k := by
          rintro rfl
          exact h.1 (List.mem_map.2 ⟨_, hm, rfl⟩)
        simp only [dGet, if_neg this]
        exact ih h.2 hm

theorem ios_options {d : Dict String (Option String)} (h : IosText.TextOptionsOk d) (k : String) (v : List Char) :
    (':' ∉ k.toList ∧ Cell.text (k.toList ++ ':' :: v) ∈ iosOptionCells d) ↔ (k, none) ∈ d ∧ v = "None".toList ∨ ∃ w, (k, some w) ∈ d ∧ v = w.toList := by
  unfold iosOptionCells
  simp only [List.mem_map, List.mem_mergeSort, dKeys]
  constructor
  · rintro ⟨hk, k', ⟨⟨k'', w⟩, hp, rfl⟩, e⟩
    simp only [Cell.text.injEq] at e
    rw [(dGet_mem_text h.2 k'' w).2 hp] at e
    obtain ⟨e1, e2⟩ := split_at (h.1 _ hp) hk e
    rw [String.toList_inj] at e1
    subst e1
    cases w with
    | none => exact .inl ⟨hp, e2.symm⟩
    | some w => exact .inr ⟨w, hp, e2.symm⟩
  · intro hh
    have : ∃ w, (k, w) ∈ d ∧ v = printed w := by
      rcases hh with ⟨h1, h2⟩ | ⟨w, h1, h2⟩
      · exact ⟨none, h1, h2⟩
      · exact ⟨some w, h1, h2⟩
    obtain ⟨w, h1, rfl⟩ := this
    refine ⟨h.1 _ h1, k, ⟨_, h1, rfl⟩, ?_⟩
    rw [(dGet_mem_text h.2 k w).2 h1]
    rfl

/-- **C117.** If the columns leave nothing out, the row of an IOS rule is read as that rule and as nothing else. -/
theorem C117_row_partial (nm : Nat → String) (s t : Option String) {wild : Bool} (r : IosText.IRule) (hr : IosText.RowOk r) (h1 : Configured wild r.src.host) (h2 : Configured wild r.dst.host)
    (hn : IosNothingLost r) (x : ColumnsShown) (o : String → List Char → Prop) : IosReads (iosRow nm s t r) x o ↔ IosIs nm r x o := by
  rw [whole_reads, whole_is, columns_iff nm s t r hr h1 h2 hn x]
  constructor
  · rintro ⟨h, h'⟩
    exact ⟨h, fun k v => (h' k v).trans (ios_options hr.options k v)⟩
  · rintro ⟨h, h'⟩
    exact ⟨h, fun k v => (h' k v).trans (ios_options hr.options k v).symm⟩

/-- A rule of the parse result of an IOS text. -/
def RuleOf (items : List IosText.Item) (r : IosText.IRule) : Prop := IosText.Item.rule r ∈ items ∨ ∃ l, IosText.Item.rules l ∈ items ∧ r ∈ l

theorem ruleOf_ok {g : Lookup.Guard} {t u : List Char} {items : List IosText.Item} (h : IosText.parseFile g t = .ok items u) {r : IosText.IRule} (hr : RuleOf items r) :
    IosText.RowOk r ∧ Configured true r.src.host ∧ Configured true r.dst.host := by
  rcases hr with hr | ⟨l, hl, hr⟩
  · exact ⟨IosText.parseFile_rows h _ hr, Accepted.C94_ios_hosts g t u items h _ hr _ (.src r), Accepted.C94_ios_hosts g t u items h _ hr _ (.dst r)⟩
  · exact ⟨IosText.parseFile_rows h _ hl r hr, Accepted.C94_ios_hosts g t u items h _ hl _ (.srcs r l hr), Accepted.C94_ios_hosts g t u items h _ hl _ (.dsts r l hr)⟩

/-- **C117, whole texts.** Whatever text is accepted, the row of every rule the columns leave nothing out of is read as that rule and as nothing else. -/
theorem C117_ios_partial (g : Lookup.Guard) (t u : List Char) (items : List IosText.Item) (h : IosText.parseFile g t = .ok items u) (r : IosText.IRule) (hr : RuleOf items r)
    (hn : IosNothingLost r) (nm : Nat → String) (a b : Option String) (x : ColumnsShown) (o : String → List Char → Prop) : IosReads (iosRow nm a b r) x o ↔ IosIs nm r x o :=
  C117_row_partial nm a b r (ruleOf_ok h hr).1 (ruleOf_ok h hr).2.1 (ruleOf_ok h hr).2.2 hn x o

/-- Equal rows are rows of rules with the same mode, protocol, hosts, ports, icmp type and options, up to objects of the same name and options with the value `None`. -/
theorem C117_equal_rows_partial (g g' : Lookup.Guard) (t u t' u' : List Char) (items items' : List IosText.Item) (h : IosText.parseFile g t = .ok items u) (h' : IosText.parseFile g' t' = .ok items' u')
    (r r' : IosText.IRule) (hr : RuleOf items r) (hr' : RuleOf items' r') (hn : IosNothingLost r) (hn' : IosNothingLost r') (nm nm' : Nat → String) (a b a' b' : Option String)
    (he : iosRow nm a b r = iosRow nm' a' b' r') (x : ColumnsShown) (o : String → List Char → Prop) : IosIs nm r x o ↔ IosIs nm' r' x o := by
  rw [← C117_ios_partial g t u items h r hr hn nm a b, ← C117_ios_partial g' t' u' items' h' r' hr' hn' nm' a' b', he]

/-- **C117 is violated by icmp codes:** rules of the protocol icmp that differ in the code have the same row. -/
theorem C117_violated_code (nm : Nat → String) (s t : Option String) (r : IosText.IRule) (ty : String) (c c' : Option String) :
    iosRow nm s t { r with icmp := some (.icmp ty c) } = iosRow nm s t { r with icmp := some (.icmp ty c') } := rfl

/-- **C117 is violated by every other protocol with icmp types** (icmp6). -/
theorem C117_violated_icmp6 (nm : Nat → String) (s t : Option String) (r : IosText.IRule) (h : r.protocol ≠ .name "icmp") (i j : Option IcmpVal) :
    iosRow nm s t { r with icmp := i } = iosRow nm s t { r with icmp := j } := by
  simp [iosRow, row, asRule, h]

/-- **C117 is violated by ports of the protocol icmp.** -/
theorem C117_violated_port (nm : Nat → String) (s t : Option String) (r : IosText.IRule) (h : r.protocol = .name "icmp") (p q : Option PortVal) :
    iosRow nm s t { r with dst := { r.dst with port := p } } = iosRow nm s t { r with dst := { r.dst with port := q } } := by
  simp [iosRow, row, asRule, h]

/-- **C117 is violated by values `None`:** `log None` has the row of `log`. -/
theorem C117_violated_none (nm : Nat → String) (s t : Option String) (r : IosText.IRule) :
    iosRow nm s t { r with options := [("log", none)] } = iosRow nm s t { r with options := [("log", some "None")] } := by
  have : iosOptionCells [("log", none)] = iosOptionCells [("log", some "None")] := by
    simp [iosOptionCells, dKeys, dGet, printed]
  simp only [iosRow, this]
  rfl

/-- The first rule of a text with a named list. -/
def firstIosRule (t : String) : Option IosText.IRule :=
  match IosText.parseFile Lookup.tatsuGuard t.toList with
  | .ok (.rules (r :: _) :: _) _ => some r
  | _ => none

theorem firstIosRule_some {t : String} {f : IosText.IRule → Bool} (h : (firstIosRule t).any f = true) :
    ∃ items u r, IosText.parseFile Lookup.tatsuGuard t.toList = .ok items u ∧ RuleOf items r ∧ f r = true := by
  unfold firstIosRule at h
  split at h
  · rename_i r l k u hp
    exact ⟨_, _, r, hp, .inr ⟨_, List.mem_cons_self, List.mem_cons_self⟩, h⟩
  · cases h

/-- Texts with such rules are accepted. -/
theorem C117_violated_sample :
    (∃ items u r, IosText.parseFile Lookup.tatsuGuard "ip access-list extended x\n permit icmp any any unreachable 3\n".toList = .ok items u ∧ RuleOf items r ∧
      (decide (r.protocol = .name "icmp") && decide (r.icmp = some (.icmp "unreachable" (some "3")))) = true) ∧
    (∃ items u r, IosText.parseFile Lookup.tatsuGuard "ip access-list extended x\n permit icmp6 any any echo\n".toList = .ok items u ∧ RuleOf items r ∧
      (decide (r.protocol = .name "icmp6") && decide (r.icmp = some (.icmp "echo" none))) = true) ∧
    (∃ items u r, IosText.parseFile Lookup.tatsuGuard "ip access-list extended x\n permit icmp any any eq 80\n".toList = .ok items u ∧ RuleOf items r ∧
      (decide (r.protocol = .name "icmp") && decide (r.dst.port = some (.port "eq" "80"))) = true) ∧
    (∃ items u r, IosText.parseFile Lookup.tatsuGuard "ip access-list extended x\n permit ip any any log None\n".toList = .ok items u ∧ RuleOf items r ∧
      decide (r.options = [("log", some "None")]) = true) :=
  ⟨firstIosRule_some (f := fun r => decide (r.protocol = .name "icmp") && decide (r.icmp = some (.icmp "unreachable" (some "3")))) (by decide +kernel),
   firstIosRule_some (f := fun r => decide (r.protocol = .name "icmp6") && decide (r.icmp = some (.icmp "echo" none))) (by decide +kernel),
   firstIosRule_some (f := fun r => decide (r.protocol = .name "icmp") && decide (r.dst.port = some (.port "eq" "80"))) (by decide +kernel),
   firstIosRule_some (f := fun r => decide (r.options = [("log", some "None")])) (by decide +kernel)⟩

/-- The hypotheses are met: a rule with a wildcard, a port and an option. -/
theorem C117_sample : ∃ items u r, IosText.parseFile Lookup.tatsuGuard "ip access-list extended x\n permit tcp 10.0.0.1 0.255.0.0 any eq 80 established\n".toList = .ok items u ∧ RuleOf items r ∧
    IosNothingLost r ∧ (iosRow (fun _ => "") none none r).src = .text "VERIFY 10.0.0.1/0.255.0.0".toList ∧ (iosRow (fun _ => "") none none r).last = .text "eq 80".toList ∧
    (iosRow (fun _ => "") none none r).options = [.text "established:None".toList] := by
  obtain ⟨items, u, r, h1, h2, h3⟩ := firstIosRule_some (t := "ip access-list extended x\n permit tcp 10.0.0.1 0.255.0.0 any eq 80 established\n")
    (f := fun r => decide (r.protocol = .name "tcp") && decide (r.icmp = none) && decide (r.options = [("established", none)]) && decide (hostCell none r.src.host = .text "VERIFY 10.0.0.1/0.255.0.0".toList) &&
      decide (portValCell (fun _ => "") r.dst.port = .text "eq 80".toList)) (by decide +kernel)
  simp only [Bool.and_eq_true, decide_eq_true_eq] at h3
  obtain ⟨⟨⟨⟨h3, h4⟩, h5⟩, h6⟩, h7⟩ := h3
  refine ⟨items, u, r, h1, h2, ⟨fun e => ?_, fun _ => h4⟩, h6, ?_, ?_⟩
  · rw [h3] at e; simp at e
  · have : r.protocol ≠ .name "icmp" := by rw [h3]; simp
    simp [iosRow, row, asRule, this, h7]
  · simp [iosRow, iosOptionCells, h5, dKeys, dGet, printed]

end Acltk.Cells
