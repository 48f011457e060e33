import Verif.Spec.PortSpec
import Verif.Lemmas.Text
/-!
# C31–C34, C53: ports
-/
namespace Acltk

/-! ## C31 -/

theorem opText_eq (p : Port) : p.opText = p.operator := by
  obtain ⟨op, num⟩ := p
  cases op <;> rfl

theorem lt_irrefl' (a : String) : ¬ a < a := Std.lt_irrefl

/-- **C31** for ports with a number: `<` is the lexicographic order of (operator, number text), and
the other comparisons agree with it. -/
theorem C31_comparisons (p q : Port) (hp : p.num ≠ none) (hq : q.num ≠ none) :
    (∃ r, p.lt (some q) = .ok r ∧ (r = true ↔ PortBefore p q)) ∧
    (p.eq (some q) = true ↔ SamePort p q) ∧ (p.ne (some q) = true ↔ ¬ SamePort p q) ∧
    (∃ r, p.gt (some q) = .ok r ∧ (r = true ↔ PortBefore q p)) ∧
    (∃ r, p.le (some q) = .ok r ∧ (r = true ↔ (PortBefore p q ∨ SamePort p q))) ∧
    (∃ r, p.ge (some q) = .ok r ∧ (r = true ↔ (PortBefore q p ∨ SamePort p q))) := by
  obtain ⟨po, pn⟩ := p
  obtain ⟨qo, qn⟩ := q
  cases pn with
  | none => exact absurd rfl hp
  | some a =>
  cases qn with
  | none => exact absurd rfl hq
  | some b =>
  have e1 : ∀ (o : Option String) (n : Option String), (Port.mk o n).opText = (Port.mk o n).operator := fun o n => opText_eq _
  generalize hP : (Port.mk po (some a)) = P
  generalize hQ : (Port.mk qo (some b)) = Q
  have hpn : P.num = some a := by rw [← hP]
  have hqn : Q.num = some b := by rw [← hQ]
  have hPo := opText_eq P
  have hQo := opText_eq Q
  have hlt : ∃ r, P.lt (some Q) = .ok r ∧ (r = true ↔ PortBefore P Q) := by
    unfold Port.lt PortBefore
    simp only [hPo, hQo, hpn, hqn]
    by_cases ho : P.operator = Q.operator
    · simp only [ho, if_true]
      by_cases hn : a = b
      · subst hn
        simp [lt_irrefl']
      · simp [hn, lt_irrefl']
    · simp [ho]
  have heq : P.eq (some Q) = true ↔ SamePort P Q := by
    simp [Port.eq, SamePort, hPo, hQo]
  have hgt : (¬ PortBefore P Q ∧ ¬ SamePort P Q) ↔ PortBefore Q P := by
    unfold PortBefore SamePort
    simp only [hpn, hqn]
    have anti : ∀ x y : String, x < y → ¬ y < x := fun x y h h' => lt_irrefl' _ (Std.lt_trans h h')
    rcases Std.lt_trichotomy P.operator Q.operator with h | h | h
    · have := anti _ _ h
      have hne : ¬ Q.operator = P.operator := fun e => lt_irrefl' _ (e ▸ h)
      simp [h, this, hne]
    · rcases Std.lt_trichotomy a b with h2 | h2 | h2
      · simp [h, lt_irrefl', h2, anti _ _ h2]
      · simp [h, lt_irrefl', h2]
      · have hne : a ≠ b := fun e => lt_irrefl' _ (e ▸ h2)
        simp [h, lt_irrefl', h2, anti _ _ h2, hne]
    · have := anti _ _ h
      have hne : ¬ P.operator = Q.operator := fun e => lt_irrefl' _ (e ▸ h)
      simp [h, this, hne]
  obtain ⟨r, hr, hri⟩ := hlt
  refine ⟨⟨r, hr, hri⟩, heq, by rw [← heq]; simp [Port.ne], ?_, ?_, ?_⟩
  · refine ⟨!r && P.ne (some Q), by simp [Port.gt, hr], ?_⟩
    rw [← hgt, ← hri, ← heq]
    simp [Port.ne]
  · refine ⟨r || P.eq (some Q), by simp [Port.le, hr], ?_⟩
    rw [← hri, ← heq]
    simp
  · refine ⟨!r, by simp [Port.ge, hr], ?_⟩
    rw [← hgt, ← hri, ← heq]
    have : r = true → P.eq (some Q) = true → False := by
      intro h1 h2
      rw [hri] at h1
      rw [heq] at h2
      obtain ⟨h3, h4⟩ := h2
      rcases h1 with h1 | ⟨_, a', b', ha', hb', h1⟩
      · exact lt_irrefl' _ (h3 ▸ h1)
      · rw [ha', hb'] at h4
        cases h4
        exact lt_irrefl' _ h1
    cases r <;> cases hE : P.eq (some Q) <;> simp_all

/-- **C31** the order is total and strict: exactly one of `<`, `==`, `>`, and `<` is transitive. -/
theorem C31_total_order (p q r : Port) (hp : p.num ≠ none) (hq : q.num ≠ none) :
    ((PortBefore p q ∧ ¬ SamePort p q ∧ ¬ PortBefore q p) ∨
     (¬ PortBefore p q ∧ SamePort p q ∧ ¬ PortBefore q p) ∨
     (¬ PortBefore p q ∧ ¬ SamePort p q ∧ PortBefore q p)) ∧
    (PortBefore p q → PortBefore q r → PortBefore p r) := by
  constructor
  · obtain ⟨⟨a, ha, hai⟩, hE, _, ⟨b, hb, hbi⟩, _, ⟨c, hc, hci⟩⟩ := C31_comparisons p q hp hq
    unfold Port.gt at hb
    unfold Port.ge at hc
    rw [ha] at hb hc
    simp only [Except.ok.injEq, Port.ne] at hb hc
    rw [← hai, ← hbi, ← hE]
    rw [← hbi, ← hE] at hci
    revert hb hc hci
    cases a <;> cases p.eq (some q) <;> cases b <;> cases c <;> simp
  · have tr : ∀ x y z : String, x < y → y < z → x < z := fun _ _ _ => Std.lt_trans
    rintro (h1 | ⟨h1, a, b, ha, hb, h1'⟩) (h2 | ⟨h2, c, d, hc, hd, h2'⟩)
    · exact .inl (tr _ _ _ h1 h2)
    · exact .inl (h2 ▸ h1)
    · exact .inl (h1 ▸ h2)
    · rw [hb] at hc; cases hc
      exact .inr ⟨h1.trans h2, a, d, ha, hd, tr _ _ _ h1' h2'⟩

/-- **C31**, the edges: comparing an operator-less port with `None`, or a port without number with a
numbered one of the same operator, raises TypeError. -/
theorem C31_unordered_cases (p q : Port) :
    (p.operator = "" → p.lt none = .error .type) ∧
    (p.operator = q.operator → p.num = none → q.num ≠ none → p.lt (some q) = .error .type) := by
  constructor
  · intro h; simp [Port.lt, opText_eq, h]
  · intro h h1 h2
    simp only [Port.lt, opText_eq, h, if_true, h1]
    rw [if_neg (fun e => h2 e.symm)]

example : (⟨some "eq", some "80"⟩ : Port).lt (some ⟨some "eq", some "9"⟩) = .ok true := by decide +kernel

/-! ## C32 -/

/-- **C32 is violated**: any two distinct objects with the same contents are equal and have different
hashes, and a set keeps both. -/
theorem C32_violated (v : Port) (i j : Nat) (hij : i ≠ j) :
    (PortObj.mk i v).val.eq (some (PortObj.mk j v).val) = true ∧
    (PortObj.mk i v).hash ≠ (PortObj.mk j v).hash ∧
    portSetOf [⟨i, v⟩, ⟨j, v⟩] = [⟨i, v⟩, ⟨j, v⟩] := by
  refine ⟨by simp [Port.eq], hij, ?_⟩
  simp [portSetOf, portSetAdd, PortObj.hash, hij]

theorem portSetAdd_ids (s : List PortObj) (p : PortObj) :
    portSetAdd s p = if p.id ∈ s.map (·.id) then s else s ++ [p] := by
  unfold portSetAdd
  have : s.any (fun q => q.hash == p.hash && (q.id == p.id || q.val.eq (some p.val))) = true ↔ p.id ∈ s.map (·.id) := by
    simp only [List.any_eq_true, List.mem_map, PortObj.hash, Bool.and_eq_true, beq_iff_eq, Bool.or_eq_true]
    constructor
    · rintro ⟨q, hq, h, _⟩; exact ⟨q, hq, h⟩
    · rintro ⟨q, hq, h⟩; exact ⟨q, hq, h, .inl h⟩
  by_cases h : p.id ∈ s.map (·.id)
  · rw [if_pos h, if_pos (this.2 h)]
  · rw [if_neg h, if_neg (fun e => h (this.1 e))]

/-- **C32, what holds**: sets and dicts identify ports exactly by object identity: the same object
is stored once, distinct objects are all stored, in any sequence of insertions. -/
theorem C32_identity_partial (l : List PortObj) :
    ((portSetOf l).map (·.id)).Nodup ∧ ∀ i, i ∈ (portSetOf l).map (·.id) ↔ i ∈ l.map (·.id) := by
  have gen : ∀ (l s : List PortObj), (s.map (·.id)).Nodup →
      ((l.foldl portSetAdd s).map (·.id)).Nodup ∧
      ∀ i, i ∈ (l.foldl portSetAdd s).map (·.id) ↔ i ∈ s.map (·.id) ∨ i ∈ l.map (·.id) := by
    intro l
    induction l with
    | nil => intro s h; exact ⟨h, by simp⟩
    | cons p t ih =>
      intro s h
      simp only [List.foldl_cons]
      rw [portSetAdd_ids]
      split
      · rename_i hm
        obtain ⟨h1, h2⟩ := ih s h
        refine ⟨h1, fun i => ?_⟩
        rw [h2]
        simp only [List.map_cons, List.mem_cons]
        constructor
        · rintro (h | h)
          · exact .inl h
          · exact .inr (.inr h)
        · rintro (h | h | h)
          · exact .inl h
          · subst h; exact .inl hm
          · exact .inr h
      · rename_i hm
        have hnd : ((s ++ [p]).map (·.id)).Nodup := by
          rw [List.map_append, List.nodup_append]
          refine ⟨h, by simp, ?_⟩
          intro a ha b hb
          simp at hb
          subst hb
          exact fun e => hm (e ▸ ha)
        obtain ⟨h1, h2⟩ := ih (s ++ [p]) hnd
        refine ⟨h1, fun i => ?_⟩
        rw [h2]
        simp [or_assoc]
  obtain ⟨h1, h2⟩ := gen l [] (by simp)
  exact ⟨h1, by simpa [portSetOf] using h2⟩

/-! ## integers in texts -/

theorem digit_not_space {c : Char} (h : c.isDigit = true) : isSpace c = false := by
  have := isDigit_val h
  simp only [Char.isDigit, Bool.and_eq_true, decide_eq_true_eq] at h
  unfold isSpace
  have h1 : 48 ≤ c.toNat := by
    have := h.1; exact UInt32.le_iff_toNat_le.1 this
  have h2 : c ≠ ' ' := by rintro rfl; exact absurd h1 (by decide)
  simp [h2]
  omega

theorem strip_digits {s : List Char} (h : ∀ c ∈ s, c.isDigit = true) : strip s = s := by
  have gen : ∀ t : List Char, (∀ c ∈ t, c.isDigit = true) → t.dropWhile isSpace = t := by
    intro t ht
    cases t with
    | nil => rfl
    | cons c r => simp [List.dropWhile, digit_not_space (ht c (by simp))]
  unfold strip
  rw [gen s h, gen s.reverse (by simpa using h), List.reverse_reverse]

theorem underscoreDigits_digits : ∀ {s : List Char}, s ≠ [] → (∀ c ∈ s, c.isDigit = true) →
    underscoreDigits s = some s := by
  intro s
  induction s with
  | nil => intro h; exact absurd rfl h
  | cons c t ih =>
    intro _ h
    cases t with
    | nil => simp [underscoreDigits, h c (by simp)]
    | cons d r =>
      have hd : d ≠ '_' := by
        rintro rfl
        have := h '_' (by simp)
        revert this; decide
      have := ih (by simp) (fun x hx => h x (by simp [hx]))
      simp [underscoreDigits, h c (by simp), hd, this]

/-- `int(s)` of a text of at most 4300 digits is the number it denotes. -/
theorem pyInt_digits {s : List Char} (h : DigitText s) :
    pyInt s = if s.length ≤ 4300 then some (digitValue s : Int) else none := by
  unfold pyInt
  rw [strip_digits h.2]
  have hhead : ∀ c r, s = c :: r → c ≠ '-' ∧ c ≠ '+' := by
    intro c r e
    have := h.2 c (by simp [e])
    constructor <;> (rintro rfl; revert this; decide)
  have hm : splitSign s = (false, s) := by
    unfold splitSign
    split
    · exact absurd rfl (hhead '-' _ rfl).1
    · exact absurd rfl (hhead '+' _ rfl).2
    · rfl
  simp only [hm, underscoreDigits_digits h.1 h.2]
  simp [digitValue]

/-! ## C33 -/

/-- **C33 is violated** in both directions: 9–10 is refused, 100–20 is accepted. -/
theorem C33_violated :
    mkPortRange "9" "10" = .error .assertion ∧ mkPortRange "100" "20" = .ok (.range "100" "20") := by
  decide +kernel

theorem digit_lt {c d : Char} (hc : c.isDigit = true) (hd : d.isDigit = true) :
    c < d ↔ c.toNat - '0'.toNat < d.toNat - '0'.toNat := by
  have h1 := (isDigit_val hc)
  have h2 := (isDigit_val hd)
  simp only [Char.isDigit, Bool.and_eq_true, decide_eq_true_eq] at hc hd
  have e1 : 48 ≤ c.toNat := UInt32.le_iff_toNat_le.1 hc.1
  have e2 : 48 ≤ d.toNat := UInt32.le_iff_toNat_le.1 hd.1
  have : c < d ↔ c.toNat < d.toNat := by
    show c.val < d.val ↔ _
    exact UInt32.lt_iff_toNat_lt
  rw [this]
  have : '0'.toNat = 48 := rfl
  omega

theorem digits_lex : ∀ {s t : List Char}, (∀ c ∈ s, c.isDigit = true) → (∀ c ∈ t, c.isDigit = true) →
    s.length = t.length → (s < t ↔ digitValue s < digitValue t) := by
  intro s
  induction s with
  | nil => intro t _ _ h; cases t with | nil => simp [digitValue] | cons => simp at h
  | cons c s ih =>
    intro t hs ht h
    cases t with
    | nil => simp at h
    | cons d t =>
      have hl : s.length = t.length := by simpa using h
      have hs' := fun x hx => hs x (List.mem_cons_of_mem c hx)
      have ht' := fun x hx => ht x (List.mem_cons_of_mem d hx)
      have hcd := digit_lt (hs c (by simp)) (ht d (by simp))
      have hi := ih hs' ht' hl
      have b1 := ofDigitChars_lt hs' 0
      have b2 := ofDigitChars_lt ht' 0
      have hce : c = d ↔ c.toNat - '0'.toNat = d.toNat - '0'.toNat := by
        obtain ⟨k, hk, e1, e2⟩ := isDigit_val (hs c (by simp))
        obtain ⟨k', hk', e1', e2'⟩ := isDigit_val (ht d (by simp))
        rw [e2, e2']
        constructor
        · rintro rfl; omega
        · intro e; rw [e1, e1', e]
      rw [List.cons_lt_cons_iff]
      unfold digitValue at *
      rw [Nat.ofDigitChars_cons, Nat.ofDigitChars_cons]
      rw [Nat.ofDigitChars_eq_ofDigitChars_zero (l := s) (init := 10 * 0 + (c.toNat - '0'.toNat)),
        Nat.ofDigitChars_eq_ofDigitChars_zero (l := t) (init := 10 * 0 + (d.toNat - '0'.toNat))]
      rw [hcd, hi, ← hl]
      simp only [Nat.zero_add, Nat.one_mul, Nat.mul_zero] at b1 b2 ⊢
      rw [← hl] at b2
      generalize c.toNat - '0'.toNat = x at *
      generalize d.toNat - '0'.toNat = y at *
      have hxy : c = d ↔ x = y := hce
      rw [hxy]
      generalize 10 ^ s.length = P at *
      rcases Nat.lt_trichotomy x y with h | h | h
      · have := Nat.mul_le_mul_left P (show x + 1 ≤ y from h)
        rw [Nat.mul_add] at this
        constructor
        · intro _; omega
        · intro _; exact .inl h
      · subst h; simp
      · have := Nat.mul_le_mul_left P (show y + 1 ≤ x from h)
        rw [Nat.mul_add] at this
        constructor
        · rintro (h' | ⟨h', _⟩) <;> omega
        · intro h'; omega

/-- **C33, what holds**: numeric texts with the same number of digits are accepted iff the start is
numerically below the stop; if either text is not an integer every pair is accepted.  Missing:
numbers of different length, where it is false. -/
theorem C33_port_range_partial (start stop : String) :
    (DigitText start.toList → DigitText stop.toList → start.toList.length = stop.toList.length →
      start.toList.length ≤ 4300 →
      mkPortRange start stop =
        if digitValue start.toList < digitValue stop.toList then .ok (.range start stop) else .error .assertion) ∧
    ((pyInt start.toList = none ∨ pyInt stop.toList = none) → mkPortRange start stop = .ok (.range start stop)) := by
  constructor
  · intro h1 h2 hl h4
    unfold mkPortRange
    have e : start < stop ↔ digitValue start.toList < digitValue stop.toList := by
      rw [String.lt_iff]; exact digits_lex h1.2 h2.2 hl
    rw [pyInt_digits h1, pyInt_digits h2, if_pos h4, if_pos (hl ▸ h4)]
    simp only
    by_cases h : start < stop
    · rw [if_pos h, if_pos (e.1 h)]
    · rw [if_neg h, if_neg (fun x => h (e.2 x))]
  · rintro (h | h)
    · simp [mkPortRange, h]
    · unfold mkPortRange
      rw [h]
      cases pyInt start.toList <;> rfl

/-- In front of the other in a dictionary: at the first difference the smaller digit, or the beginning of the other. -/
def Before (s t : List Char) : Prop :=
  (∃ c u, t = s ++ c :: u) ∨ ∃ p a b u v, s = p ++ a :: u ∧ t = p ++ b :: v ∧ a < b

theorem before_iff (s t : List Char) : s < t ↔ Before s t := by
  induction s generalizing t with
  | nil =>
    cases t with
    | nil =>
      constructor
      · intro h; exact absurd h (List.lt_irrefl [])
      · rintro (⟨c, u, h⟩ | ⟨p, a, b, u, v, h, -⟩) <;> simp at h
    | cons c t => exact ⟨fun _ => Or.inl ⟨c, t, rfl⟩, fun _ => List.nil_lt_cons c t⟩
  | cons x s ih =>
    cases t with
    | nil =>
      constructor
      · intro h; exact absurd h (List.not_lt_nil _)
      · rintro (⟨c, u, h⟩ | ⟨p, a, b, u, v, -, h, -⟩) <;> simp at h
    | cons y t =>
      rw [List.cons_lt_cons_iff, ih]
      constructor
      · rintro (h | ⟨rfl, h⟩)
        · exact Or.inr ⟨[], x, y, s, t, rfl, rfl, h⟩
        · rcases h with ⟨c, u, rfl⟩ | ⟨p, a, b, u, v, rfl, rfl, h⟩
          · exact Or.inl ⟨c, u, rfl⟩
          · exact Or.inr ⟨x :: p, a, b, u, v, rfl, rfl, h⟩
      · rintro (⟨c, u, h⟩ | ⟨p, a, b, u, v, h1, h2, h3⟩)
        · simp only [List.cons_append, List.cons.injEq] at h
          exact Or.inr ⟨h.1.symm, Or.inl ⟨c, u, h.2⟩⟩
        · cases p with
          | nil =>
            simp only [List.nil_append, List.cons.injEq] at h1 h2
            exact Or.inl (by rw [h1.1, h2.1]; exact h3)
          | cons z p =>
            simp only [List.cons_append, List.cons.injEq] at h1 h2
            exact Or.inr ⟨h1.1.trans h2.1.symm, Or.inr ⟨p, a, b, u, v, h1.2, h2.2, h3⟩⟩

/-- **C33, exactly**: two numbers (of at most 4300 digits) are accepted iff the start is in front of the stop in a dictionary,
whatever their values; the range is then the two texts. -/
theorem C33_exact (start stop : String) (h1 : DigitText start.toList) (h2 : DigitText stop.toList)
    (l1 : start.toList.length ≤ 4300) (l2 : stop.toList.length ≤ 4300) :
    (Before start.toList stop.toList → mkPortRange start stop = .ok (.range start stop)) ∧
    (¬ Before start.toList stop.toList → mkPortRange start stop = .error .assertion) := by
  unfold mkPortRange
  rw [pyInt_digits h1, pyInt_digits h2, if_pos l1, if_pos l2, ← before_iff, ← String.lt_iff]
  constructor
  · intro h; simp [h]
  · intro h; simp [h]

example : DigitText "1024".toList ∧ DigitText "8080".toList ∧ "1024".toList.length = "8080".toList.length := by
  unfold DigitText; decide

/-! ## C34 -/

theorem checkedInt_digits (max : Nat) {s : List Char} (h : DigitText s) (t : List Char) :
    checkedInt max s = .ok t ↔ t = s ∧ digitValue s ≤ max ∧ s.length ≤ 4300 := by
  unfold checkedInt
  rw [pyInt_digits h]
  by_cases hl : s.length ≤ 4300
  · simp only [hl, if_true, and_true]
    by_cases hm : digitValue s ≤ max
    · have : (0 : Int) ≤ (digitValue s : Int) ∧ (digitValue s : Int) ≤ (max : Int) := by omega
      simp [hm, eq_comm]
    · have : ¬ ((0 : Int) ≤ (digitValue s : Int) ∧ (digitValue s : Int) ≤ (max : Int)) := by omega
      simp [hm]
  · simp [hl]

/-- **C34** a number text is accepted, and returned unchanged, iff it is within the range of its
field: protocol ≤ 255, port ≤ 65535, ICMP type and code ≤ 255 (and has at most 4300 digits, the
limit of CPython's `int`). -/
theorem C34_number_checks (s t : List Char) (h : DigitText s) :
    (protocolInt s = .ok t ↔ t = s ∧ digitValue s ≤ 255 ∧ s.length ≤ 4300) ∧
    (portInt s = .ok t ↔ t = s ∧ digitValue s ≤ 65535 ∧ s.length ≤ 4300) ∧
    (icmpTypeInt s = .ok t ↔ t = s ∧ digitValue s ≤ 255 ∧ s.length ≤ 4300) ∧
    (icmpCodeInt s = .ok t ↔ t = s ∧ digitValue s ≤ 255 ∧ s.length ≤ 4300) :=
  ⟨checkedInt_digits _ h t, checkedInt_digits _ h t, checkedInt_digits _ h t, checkedInt_digits _ h t⟩

/-- **C34** every number in range has its usual decimal text accepted. -/
theorem C34_every_port_accepted (n : Nat) (h : n ≤ 65535) : portInt (decText n) = .ok (decText n) := by
  have hd : DigitText (decText n) := by
    have := isDigits_decText n
    simp only [isDigits, Bool.and_eq_true, List.all_eq_true] at this
    exact ⟨decText_ne_nil n, this.2⟩
  have hl : (decText n).length ≤ 5 := (decText_length_le (by omega)).2 (by omega)
  exact ((C34_number_checks _ _ hd).2.1).2 ⟨rfl, by unfold digitValue; rw [ofDigitChars_decText]; exact h, by omega⟩

example : portInt "65535".toList = .ok "65535".toList ∧ portInt "65536".toList = .error .assertion := by decide +kernel

/-! ## C53 -/

/-- **C53 is violated**: `port-object eq N` yields a port without number, the same for every `N`. -/
theorem C53_violated (n m : String) :
    portGroupObject (portObjectEqAst n) = .ok (.port ⟨some "eq", none⟩) ∧
    portGroupObject (portObjectEqAst n) = portGroupObject (portObjectEqAst m) := ⟨rfl, rfl⟩

/-- **C53, what holds**: a `port-object range` member keeps both ends (when the range check C33 lets
it pass), and ports written directly in a rule or service object keep operator and number. -/
theorem C53_ports_partial (b e op n : String) :
    (∀ r, portGroupObject (portObjectRangeAst b e) = .ok r → r = .range b e) ∧
    aclPort op n = .port ⟨some op, some n⟩ := by
  refine ⟨fun r h => ?_, rfl⟩
  simp only [portGroupObject, portObjectRangeAst, if_true, mkPortRange] at h
  split at h
  · cases h; rfl
  · split at h
    · cases h; rfl
    · split at h
      · cases h; rfl
      · cases h

end Acltk
