import Verif.Model.Summarize
import Verif.Lemmas.Ipv6Text
import Verif.Lemmas.Meet
import Verif.Spec.NetSpec
namespace Acltk

theorem stepBits_le_width (v : Ver) (first last : Nat) : stepBits v first last ≤ v.width := by
  unfold stepBits
  refine Nat.le_trans (Nat.min_le_left _ _) ?_
  unfold countRightZeros
  split
  · exact Nat.le_refl _
  · exact Nat.min_le_left _ _

theorem dvd_countRightZeros (n bits : Nat) : 2 ^ countRightZeros n bits ∣ n := by
  by_cases h : n = 0
  · subst h; exact Nat.dvd_zero _
  · obtain ⟨k, m, hk⟩ := exists_odd_part n h
    rw [countRightZeros_odd hk]
    refine Nat.dvd_trans (Nat.pow_dvd_pow 2 (Nat.min_le_right bits k)) ?_
    rw [hk]; exact Nat.dvd_mul_right _ _

theorem dvd_stepBits (v : Ver) (first last : Nat) : 2 ^ stepBits v first last ∣ first :=
  Nat.dvd_trans (Nat.pow_dvd_pow 2 (Nat.min_le_left _ _)) (dvd_countRightZeros first v.width)

theorem stepBits_fits (v : Ver) {first last : Nat} (_h : first ≤ last) :
    first + 2 ^ stepBits v first last ≤ last + 1 := by
  have h1 : stepBits v first last ≤ (last - first + 1).log2 := by
    unfold stepBits bitLength
    rw [if_neg (by omega)]
    exact Nat.le_trans (Nat.min_le_right _ _) (by omega)
  have h2 : 2 ^ stepBits v first last ≤ 2 ^ (last - first + 1).log2 := Nat.pow_le_pow_right (by omega) h1
  have h3 := Nat.log2_self_le (n := last - first + 1) (by omega)
  omega

theorem step_valid (v : Ver) {first last : Nat} (hf : first < 2 ^ v.width) :
    (⟨v, first, v.width - stepBits v first last⟩ : Net).Valid := by
  have hw := stepBits_le_width v first last
  refine ⟨Nat.sub_le _ _, hf, ?_⟩
  show first &&& v.maskOf _ = first
  rw [and_maskOf v _ first (Nat.sub_le _ _) hf]
  have e : v.width - (v.width - stepBits v first last) = stepBits v first last := by omega
  rw [e, Nat.div_mul_cancel (dvd_stepBits v first last)]

theorem summarizeFrom_ok (v : Ver) (last : Nat) (hl : last < 2 ^ v.width) : ∀ (d first : Nat),
    last + 1 - first ≤ d → first ≤ last + 1 →
    ∃ l, summarizeFrom v first last = .ok l ∧ (∀ n ∈ l, n.Valid ∧ n.ver = v ∧ first ≤ n.addr) ∧
      l.Pairwise Below ∧ ∀ x : Addr, CoversNets l x ↔ x.ver = v ∧ first ≤ x.ip ∧ x.ip ≤ last := by
  intro d
  induction d with
  | zero =>
    intro first hd hf
    refine ⟨[], ?_, by simp, by simp, ?_⟩
    · unfold summarizeFrom; rw [if_neg (by omega)]
    · intro x; simp only [CoversNets, List.not_mem_nil, false_and, exists_false, false_iff]; omega
  | succ d ih =>
    intro first hd hf
    by_cases hle : first ≤ last
    · have hfit := stepBits_fits v hle
      have hpos := Nat.two_pow_pos (stepBits v first last)
      have hval := step_valid v (last := last) (Nat.lt_of_le_of_lt hle hl)
      have hw := stepBits_le_width v first last
      have hden : ∀ x : Addr, (⟨v, first, v.width - stepBits v first last⟩ : Net).Denotes x ↔
          x.ver = v ∧ first ≤ x.ip ∧ x.ip < first + 2 ^ stepBits v first last := by
        intro x
        unfold Net.Denotes
        simp only
        have e : v.width - (v.width - stepBits v first last) = stepBits v first last := by omega
        rw [e]
      unfold summarizeFrom
      simp only [hle, if_true]
      rw [if_neg (by simpa using hval.2.2)]
      split
      · rename_i hall
        have hall' : first + 2 ^ stepBits v first last = last + 1 := by
          unfold Ver.allOnes at hall
          have := Nat.two_pow_pos v.width
          omega
        refine ⟨_, rfl, ?_, by simp, ?_⟩
        · intro n hn; simp at hn; subst hn; exact ⟨hval, rfl, Nat.le_refl _⟩
        · intro x
          simp only [CoversNets, List.mem_singleton, exists_eq_left, hden, hall']
          constructor
          · rintro ⟨a, b, c⟩; exact ⟨a, b, by omega⟩
          · rintro ⟨a, b, c⟩; exact ⟨a, b, by omega⟩
      · obtain ⟨l, h1, h2, h3, h4⟩ := ih (first + 2 ^ stepBits v first last) (by omega) hfit
        rw [h1]
        refine ⟨_, rfl, ?_, ?_, ?_⟩
        · intro n hn
          rcases List.mem_cons.1 hn with rfl | hn
          · exact ⟨hval, rfl, Nat.le_refl _⟩
          · obtain ⟨a, b, c⟩ := h2 n hn; exact ⟨a, b, by omega⟩
        · rw [List.pairwise_cons]
          refine ⟨?_, h3⟩
          intro m hm
          have := (h2 m hm).2.2
          unfold Below
          simp only
          have e : v.width - (v.width - stepBits v first last) = stepBits v first last := by omega
          rw [e]; exact this
        · intro x
          have h5 : CoversNets (⟨v, first, v.width - stepBits v first last⟩ :: l) x ↔
              (⟨v, first, v.width - stepBits v first last⟩ : Net).Denotes x ∨ CoversNets l x := by
            simp [CoversNets, or_and_right, exists_or]
          rw [h5, hden, h4]
          constructor
          · rintro (⟨a, b, c⟩ | ⟨a, b, c⟩) <;> exact ⟨a, by omega, by omega⟩
          · rintro ⟨a, b, c⟩
            by_cases hx : x.ip < first + 2 ^ stepBits v first last
            · exact .inl ⟨a, b, hx⟩
            · exact .inr ⟨a, by omega, c⟩
    · refine ⟨[], ?_, by simp, by simp, ?_⟩
      · unfold summarizeFrom; rw [if_neg hle]
      · intro x; simp only [CoversNets, List.not_mem_nil, false_and, exists_false, false_iff]; omega

/-- Rebuilding a valid network from its address and prefix length gives the same network. -/
theorem mkNetwork_self {n : Net} (h : n.Valid) :
    mkNetwork n.networkAddress.text (decText n.plen) = .ok n := by
  have hv : n.networkAddress.Valid := h.2.1
  rw [mkNetwork_of_address (ipAddress_text hv)]
  have : makeNetmask n.networkAddress.ver (decText n.plen) = some n.plen := makeNetmask_decText h.1
  rw [this]
  simp only [mkNet, Net.networkAddress]
  congr 1
  have hm := h.2.2
  unfold Net.netmask at hm
  cases n; simp_all

theorem rebuildNets_ok {l : List Net} (h : ∀ n ∈ l, n.Valid) : rebuildNets l = .ok (l.map .net) := by
  induction l with
  | nil => rfl
  | cons n ns ih =>
    simp [rebuildNets, mkNetwork_self (h n (by simp)), ih (fun m hm => h m (by simp [hm]))]

/-! ## wildcards -/

/-- Addresses described by a pending entry. -/
def Entry' (a w : Nat) (x : Nat) : Prop := x < 2 ^ 32 ∧ AgreesOff a w x

/-- An item covers an IPv4 address. -/
def WItem.Covers : WItem → Addr → Prop
  | .addr a, x => x = a
  | .net n, x => n.Denotes x

/-- Pending entries are normalised: the address has no bit of the wildcard. -/
def EntryOk' (e : Nat × Nat) : Prop := e.1 < 2 ^ 32 ∧ e.2 < 2 ^ 32 ∧ ∀ i, e.2.testBit i = true → e.1.testBit i = false

theorem log2_bit {w : Nat} (h : 0 < w) : w.testBit w.log2 = true ∧ ∀ i, w.log2 < i → w.testBit i = false := by
  have h1 := Nat.log2_self_le (n := w) (by omega)
  have h2 := Nat.lt_log2_self (n := w)
  constructor
  · have h3 : w / 2 ^ w.log2 = 1 := by
      apply Nat.div_eq_of_lt_le
      · omega
      · rw [Nat.pow_succ] at h2; omega
    have := Nat.testBit_div_two_pow (n := w.log2) w 0
    rw [h3] at this
    simpa using this.symm
  · intro i hi
    exact testBit_ge h2 hi

theorem testBit_one_shl (b i : Nat) : (1 <<< b).testBit i = decide (b = i) := by
  rw [Nat.one_shiftLeft, Nat.testBit_two_pow]

theorem split_entry {a w : Nat} (h : EntryOk' (a, w)) (hw : 0 < w) (x : Nat) :
    Entry' a w x ↔ (Entry' a (andNot w (1 <<< w.log2)) x ∨
      Entry' (a ||| (1 <<< w.log2)) (andNot w (1 <<< w.log2)) x) := by
  obtain ⟨ha, hw32, hdis⟩ := h
  obtain ⟨hb, _⟩ := log2_bit hw
  have hab := hdis _ hb
  simp only at hab ha
  have hlt : w.log2 < 32 := by
    rcases Nat.lt_or_ge w.log2 32 with h | h
    · exact h
    · have := testBit_ge hw32 h; rw [hb] at this; cases this
  unfold Entry' AgreesOff
  simp only [testBit_andNot, testBit_one_shl, Nat.testBit_or, Bool.and_eq_false_iff, Bool.not_eq_false',
    decide_eq_true_eq]
  constructor
  · rintro ⟨h1, h2⟩
    cases hx : x.testBit w.log2 with
    | false =>
      left
      refine ⟨h1, ?_⟩
      rintro i (hi | rfl)
      · exact h2 i hi
      · rw [hx, hab]
    | true =>
      right
      refine ⟨h1, ?_⟩
      rintro i (hi | rfl)
      · have : w.log2 ≠ i := by rintro rfl; rw [hb] at hi; cases hi
        rw [h2 i hi]; simp [this]
      · rw [hx]; simp
  · rintro (⟨h1, h2⟩ | ⟨h1, h2⟩)
    · exact ⟨h1, fun i hi => h2 i (.inl hi)⟩
    · refine ⟨h1, fun i hi => ?_⟩
      have : w.log2 ≠ i := by rintro rfl; rw [hb] at hi; cases hi
      rw [h2 i (.inl hi)]; simp [this]

theorem entry_self {a w : Nat} (ha : a < 2 ^ 32) : Entry' a w a := ⟨ha, fun _ _ => rfl⟩

theorem wild1_eq {w : Nat} (hw : 0 < w) : andNot w (1 <<< w.log2) = w - 2 ^ w.log2 := by
  have h1 := Nat.log2_self_le (n := w) (by omega)
  have h2 := Nat.lt_log2_self (n := w)
  rw [Nat.pow_succ] at h2
  have e : w = 2 ^ w.log2 * 1 + (w - 2 ^ w.log2) := by omega
  apply Nat.eq_of_testBit_eq; intro i
  rw [testBit_andNot, testBit_one_shl]
  conv => lhs; arg 1; rw [e]
  rw [Nat.testBit_two_pow_mul_add _ (by omega)]
  by_cases hi : i < w.log2
  · rw [if_pos hi]; have : w.log2 ≠ i := by omega
    simp [this]
  · rw [if_neg hi]
    have hz : (w - 2 ^ w.log2).testBit i = false := testBit_ge (w := w.log2) (by omega) (by omega)
    rw [hz]
    by_cases he : w.log2 = i
    · simp [he]
    · have : (1 : Nat).testBit (i - w.log2) = false := by
        apply testBit_ge (w := 1) (by omega); omega
      simp [this]

/-- What one pass does: items lie in the entry's set, the appended entries plus the items cover it. -/
theorem wildStep_ok {a w : Nat} (h : EntryOk' (a, w)) :
    ∃ items more, wildStep a w = .ok (items, more) ∧
      (∀ e ∈ more, EntryOk' e) ∧
      (∀ x : Addr, (∃ it ∈ items, it.Covers x) → x.ver = .v4 ∧ Entry' a w x.ip) ∧
      (∀ e ∈ more, ∀ x, Entry' e.1 e.2 x → Entry' a w x) ∧
      (∀ e ∈ more, ∃ it ∈ items, it.Covers ⟨.v4, e.1⟩) ∧
      (0 < w → ∀ x, Entry' a w x → (∃ it ∈ items, it.Covers ⟨.v4, x⟩) ∨ ∃ e ∈ more, Entry' e.1 e.2 x) ∧
      ((more.map (fun e => e.2 + 1)).sum < w + 1) := by
  obtain ⟨ha, hw32, hdis⟩ := h
  simp only at ha hw32 hdis
  unfold wildStep
  by_cases hw : w > 0
  · obtain ⟨hb, hb2⟩ := log2_bit hw
    have hab := hdis _ hb
    have hlt : w.log2 < 32 := by
      rcases Nat.lt_or_ge w.log2 32 with h | h
      · exact h
      · have := testBit_ge hw32 h; rw [hb] at this; cases this
    simp only [hw, if_true]
    by_cases hm : w = 2 ^ (w.log2 + 1) - 1
    · rw [if_pos hm]
      -- hostmask: one network
      have hia : intAddress a = .ok ⟨.v4, a⟩ := by unfold intAddress; rw [if_pos ha]
      have hva : (⟨.v4, a⟩ : Addr).Valid := ha
      have hp : 31 - w.log2 ≤ (⟨.v4, a⟩ : Addr).ver.width := by show _ ≤ 32; omega
      have hdvd : 2 ^ (w.log2 + 1) ∣ a := by
        have : a % 2 ^ (w.log2 + 1) = 0 := by
          apply Nat.eq_of_testBit_eq; intro i
          rw [Nat.testBit_mod_two_pow, Nat.zero_testBit]
          by_cases hi : i < w.log2 + 1
          · have : w.testBit i = true := by rw [hm, Nat.testBit_two_pow_sub_one]; simp [hi]
            simp [hdis i this]
          · simp [hi]
        exact Nat.dvd_of_mod_eq_zero this
      have hnv : (⟨.v4, a, 31 - w.log2⟩ : Net).Valid := by
        refine ⟨hp, ha, ?_⟩
        show a &&& Ver.v4.maskOf _ = a
        rw [and_maskOf .v4 _ a hp ha]
        have e : Ver.v4.width - (31 - w.log2) = w.log2 + 1 := by show 32 - _ = _; omega
        rw [e, Nat.div_mul_cancel hdvd]
      have hst : strictNet (Addr.text ⟨.v4, a⟩) (decText (31 - w.log2)) = .ok ⟨.v4, a, 31 - w.log2⟩ := by
        have := mkNetwork_self hnv
        unfold strictNet
        simp only [Net.networkAddress] at this
        rw [this, ipAddress_text hva]
        simp
      have hden : ∀ x : Addr, (⟨.v4, a, 31 - w.log2⟩ : Net).Denotes x ↔ x.ver = .v4 ∧ Entry' a w x.ip := by
        intro x
        have e : Ver.v4.width - (31 - w.log2) = w.log2 + 1 := by show 32 - _ = _; omega
        unfold Net.Denotes Entry' AgreesOff
        simp only
        rw [e, block_div hdvd]
        have hbits : ∀ i, w.testBit i = false ↔ w.log2 + 1 ≤ i := by
          intro i
          have := Nat.testBit_two_pow_sub_one (w.log2 + 1) i
          rw [← hm] at this
          rw [this]; simp
        constructor
        · rintro ⟨h1, h2⟩
          have hbit : ∀ i, w.log2 + 1 ≤ i → x.ip.testBit i = a.testBit i := by
            intro i hi
            rw [← h2, Nat.testBit_mul_two_pow, Nat.testBit_div_two_pow]
            simp [hi, Nat.sub_add_cancel hi]
          refine ⟨h1, ?_, fun i hi => hbit i ((hbits i).1 hi)⟩
          exact lt_two_pow_of_testBit (fun i hi => by rw [hbit i (by omega)]; exact testBit_ge ha hi)
        · rintro ⟨h1, _, h2⟩
          refine ⟨h1, ?_⟩
          apply Nat.eq_of_testBit_eq; intro i
          rw [Nat.testBit_mul_two_pow, Nat.testBit_div_two_pow]
          by_cases hi : w.log2 + 1 ≤ i
          · simp [hi, Nat.sub_add_cancel hi, h2 i ((hbits i).2 hi)]
          · have : w.testBit i = true := by
              cases hq : w.testBit i with
              | true => rfl
              | false => exact absurd ((hbits i).1 hq) hi
            simp [hi, hdis i this]
      refine ⟨[.net ⟨.v4, a, 31 - w.log2⟩], [], ?_, by simp, ?_, by simp, by simp, ?_, by simp⟩
      · simp only [hia, hst]
      · rintro x ⟨it, hit, hc⟩
        simp at hit; subst hit
        exact (hden x).1 hc
      · intro _ x hx
        left
        exact ⟨.net ⟨.v4, a, 31 - w.log2⟩, by simp, (hden ⟨.v4, x⟩).2 ⟨rfl, hx⟩⟩
    · rw [if_neg hm]
      have hw1 := wild1_eq hw
      have h1 := Nat.log2_self_le (n := w) (by omega)
      have h2 := Nat.lt_log2_self (n := w)
      rw [Nat.pow_succ] at h2 hm
      have hpos := Nat.two_pow_pos w.log2
      have hne : w ≠ andNot w (1 <<< w.log2) := by rw [hw1]; omega
      have hne2 : (a, w) ≠ (a ||| 1 <<< w.log2, andNot w (1 <<< w.log2)) := by
        intro e; exact hne (Prod.mk.inj e).2
      have ha1 : a ||| 1 <<< w.log2 < 2 ^ 32 := by
        apply Nat.or_lt_two_pow ha
        rw [Nat.one_shiftLeft]; exact Nat.pow_lt_pow_right (by omega) hlt
      have hia : intAddress a = .ok ⟨.v4, a⟩ := by unfold intAddress; rw [if_pos ha]
      have hia1 : intAddress (a ||| 1 <<< w.log2) = .ok ⟨.v4, a ||| 1 <<< w.log2⟩ := by
        unfold intAddress; rw [if_pos ha1]
      have hsplit := split_entry ⟨ha, hw32, hdis⟩ hw
      have hw1lt : andNot w (1 <<< w.log2) < 2 ^ 32 := by rw [hw1]; omega
      refine ⟨[.addr ⟨.v4, a⟩, .addr ⟨.v4, a ||| 1 <<< w.log2⟩],
        [(a, andNot w (1 <<< w.log2)), (a ||| 1 <<< w.log2, andNot w (1 <<< w.log2))], ?_, ?_, ?_, ?_, ?_, ?_, ?_⟩
      · rw [if_pos hne2, if_pos hne]
        simp only [hia, hia1]; rfl
      · intro e he
        simp only [List.mem_cons, List.not_mem_nil, or_false] at he
        rcases he with rfl | rfl
        · refine ⟨ha, hw1lt, ?_⟩
          intro i hi
          rw [testBit_andNot, Bool.and_eq_true] at hi
          exact hdis i hi.1
        · refine ⟨ha1, hw1lt, ?_⟩
          intro i hi
          rw [testBit_andNot, Bool.and_eq_true, testBit_one_shl] at hi
          have hne : w.log2 ≠ i := by simpa using hi.2
          simp only [Nat.testBit_or, testBit_one_shl, hdis i hi.1]
          simp [hne]
      · rintro x ⟨it, hit, hc⟩
        simp only [List.mem_cons, List.not_mem_nil, or_false] at hit
        rcases hit with rfl | rfl
        · have : x = ⟨.v4, a⟩ := hc
          subst this; exact ⟨rfl, entry_self ha⟩
        · have : x = ⟨.v4, a ||| 1 <<< w.log2⟩ := hc
          subst this
          exact ⟨rfl, (hsplit _).2 (.inr (entry_self ha1))⟩
      · intro e he x hx
        simp only [List.mem_cons, List.not_mem_nil, or_false] at he
        rcases he with rfl | rfl
        · exact (hsplit x).2 (.inl hx)
        · exact (hsplit x).2 (.inr hx)
      · intro e he
        simp only [List.mem_cons, List.not_mem_nil, or_false] at he
        rcases he with rfl | rfl
        · exact ⟨.addr ⟨.v4, a⟩, by simp, rfl⟩
        · exact ⟨.addr ⟨.v4, a ||| 1 <<< w.log2⟩, by simp, rfl⟩
      · intro _ x hx
        right
        rcases (hsplit x).1 hx with h | h
        · exact ⟨(a, andNot w (1 <<< w.log2)), by simp, h⟩
        · exact ⟨(a ||| 1 <<< w.log2, andNot w (1 <<< w.log2)), by simp, h⟩
      · simp only [List.map_cons, List.map_nil, List.sum_cons, List.sum_nil, hw1]
        omega
  · have hw0 : w = 0 := by omega
    subst hw0
    refine ⟨[], [], by simp, by simp, by simp, by simp, by simp, by simp, by simp⟩

theorem entry_zero {a x : Nat} (h : Entry' a 0 x) : x = a := by
  apply Nat.eq_of_testBit_eq; intro i
  exact h.2 i (Nat.zero_testBit i)

theorem wildLoop_ok (P : Nat → Prop) : ∀ (fuel : Nat) (todo : List (Nat × Nat)) (acc : List WItem),
    (todo.map (fun e => e.2 + 1)).sum ≤ fuel →
    (∀ e ∈ todo, EntryOk' e) →
    (∀ x : Addr, (∃ it ∈ acc, it.Covers x) → x.ver = .v4 ∧ P x.ip) →
    (∀ e ∈ todo, ∀ x, Entry' e.1 e.2 x → P x) →
    (∀ e ∈ todo, ∃ it ∈ acc, it.Covers ⟨.v4, e.1⟩) →
    (∀ x, P x → (∃ it ∈ acc, it.Covers ⟨.v4, x⟩) ∨ ∃ e ∈ todo, Entry' e.1 e.2 x) →
    ∃ items, wildLoop fuel todo acc = some (.ok items) ∧
      ∀ x : Addr, (∃ it ∈ items, it.Covers x) ↔ x.ver = .v4 ∧ P x.ip := by
  intro fuel
  induction fuel with
  | zero =>
    intro todo acc hf h1 h2 h3 h4 h5
    cases todo with
    | nil =>
      refine ⟨acc, rfl, fun x => ⟨h2 x, ?_⟩⟩
      rintro ⟨hv, hp⟩
      obtain ⟨v, ip⟩ := x
      subst hv
      rcases h5 ip hp with h | ⟨e, he, _⟩
      · exact h
      · simp at he
    | cons e es => simp at hf
  | succ fuel ih =>
    intro todo acc hf h1 h2 h3 h4 h5
    cases todo with
    | nil =>
      refine ⟨acc, rfl, fun x => ⟨h2 x, ?_⟩⟩
      rintro ⟨hv, hp⟩
      obtain ⟨v, ip⟩ := x
      subst hv
      rcases h5 ip hp with h | ⟨e, he, _⟩
      · exact h
      · simp at he
    | cons e es =>
      obtain ⟨a, w⟩ := e
      obtain ⟨items, more, s0, s1, s2, s3, s4, s5, s6⟩ := wildStep_ok (h1 (a, w) (by simp))
      unfold wildLoop
      rw [s0]
      simp only
      apply ih
      · rw [List.map_append, List.sum_append]
        simp only [List.map_cons, List.sum_cons] at hf
        omega
      · intro e he
        rcases List.mem_append.1 he with he | he
        · exact h1 e (by simp [he])
        · exact s1 e he
      · rintro x ⟨it, hit, hc⟩
        rcases List.mem_append.1 hit with hit | hit
        · exact h2 x ⟨it, hit, hc⟩
        · obtain ⟨hv, he⟩ := s2 x ⟨it, hit, hc⟩
          exact ⟨hv, h3 (a, w) (by simp) _ he⟩
      · intro e he x hx
        rcases List.mem_append.1 he with he | he
        · exact h3 e (by simp [he]) x hx
        · exact h3 (a, w) (by simp) x (s3 e he x hx)
      · intro e he
        rcases List.mem_append.1 he with he | he
        · obtain ⟨it, hit, hc⟩ := h4 e (by simp [he])
          exact ⟨it, by simp [hit], hc⟩
        · obtain ⟨it, hit, hc⟩ := s4 e he
          exact ⟨it, by simp [hit], hc⟩
      · intro x hx
        rcases h5 x hx with ⟨it, hit, hc⟩ | ⟨e, he, hx'⟩
        · exact .inl ⟨it, by simp [hit], hc⟩
        · rcases List.mem_cons.1 he with rfl | he
          · by_cases hw : 0 < w
            · rcases s5 hw x hx' with ⟨it, hit, hc⟩ | ⟨e, he, hx''⟩
              · exact .inl ⟨it, by simp [hit], hc⟩
              · exact .inr ⟨e, by simp [he], hx''⟩
            · have : w = 0 := by omega
              subst this
              have := entry_zero hx'
              subst this
              obtain ⟨it, hit, hc⟩ := h4 (x, 0) (by simp)
              exact .inl ⟨it, by simp [hit], hc⟩
          · exact .inr ⟨e, by simp [he], hx'⟩

end Acltk
