import Verif.Spec.AddrSpec
namespace Acltk

theorem testBit_andNot (x w i : Nat) : (andNot x w).testBit i = (x.testBit i && !w.testBit i) := by
  unfold andNot; simp only [Nat.testBit_xor, Nat.testBit_and]
  cases x.testBit i <;> cases w.testBit i <;> rfl

theorem testBit_allOnes (v : Ver) (i : Nat) : v.allOnes.testBit i = decide (i < v.width) := by
  unfold Ver.allOnes; rw [Nat.testBit_two_pow_sub_one]

theorem testBit_maskOf (v : Ver) (p i : Nat) :
    (v.maskOf p).testBit i = decide (i < v.width ∧ v.width ≤ p + i) := by
  unfold Ver.maskOf
  simp only [Nat.testBit_xor, Nat.testBit_shiftRight, testBit_allOnes]
  by_cases h1 : i < v.width <;> by_cases h2 : p + i < v.width <;>
    simp [h1, h2] <;> omega

theorem testBit_hostmask (n : Net) (hp : n.plen ≤ n.ver.width) (i : Nat) :
    n.hostmask.testBit i = decide (i < n.ver.width - n.plen) := by
  unfold Net.hostmask Net.netmask
  simp only [Nat.testBit_xor, testBit_maskOf, testBit_allOnes]
  by_cases h1 : i < n.ver.width <;> by_cases h2 : n.ver.width ≤ n.plen + i <;>
    by_cases h3 : i < n.ver.width - n.plen <;> simp [h1, h2, h3] <;> omega

/-- Masking keeps the bits at or above `width - plen`. -/
theorem and_maskOf (v : Ver) (p x : Nat) (hp : p ≤ v.width) (hx : x < 2 ^ v.width) :
    x &&& v.maskOf p = (x / 2 ^ (v.width - p)) * 2 ^ (v.width - p) := by
  apply Nat.eq_of_testBit_eq
  intro i
  rw [Nat.testBit_and, testBit_maskOf, Nat.testBit_mul_two_pow, Nat.testBit_div_two_pow]
  by_cases h1 : v.width - p ≤ i
  · have e : i - (v.width - p) + (v.width - p) = i := by omega
    have h3 : v.width ≤ p + i := by omega
    by_cases h2 : i < v.width
    · simp [h1, h2, h3, e]
    · have : x.testBit i = false :=
        Nat.testBit_lt_two_pow (Nat.lt_of_lt_of_le hx (Nat.pow_le_pow_right (by omega) (by omega)))
      simp [this, e]
  · have h3 : ¬ v.width ≤ p + i := by omega
    simp [h1, h3]

theorem lt_two_pow_of_testBit {x n : Nat} (h : ∀ i, n ≤ i → x.testBit i = false) : x < 2 ^ n := by
  exact Nat.lt_pow_two_of_testBit x h

theorem testBit_ge {x w i : Nat} (hx : x < 2 ^ w) (hi : w ≤ i) : x.testBit i = false :=
  Nat.testBit_lt_two_pow (Nat.lt_of_lt_of_le hx (Nat.pow_le_pow_right (by omega) hi))

/-- In a valid network the address is a multiple of the block size. -/
theorem Net.Valid.aligned {n : Net} (h : n.Valid) :
    n.addr = (n.addr / 2 ^ (n.ver.width - n.plen)) * 2 ^ (n.ver.width - n.plen) := by
  obtain ⟨hp, ha, hm⟩ := h
  have := and_maskOf n.ver n.plen n.addr hp ha
  unfold Net.netmask at hm
  rw [hm] at this; exact this

theorem Net.Valid.dvd {n : Net} (h : n.Valid) : 2 ^ (n.ver.width - n.plen) ∣ n.addr :=
  ⟨_, by rw [Nat.mul_comm]; exact h.aligned⟩

theorem block_div {a k x : Nat} (ha : 2 ^ k ∣ a) :
    (a ≤ x ∧ x < a + 2 ^ k) ↔ x / 2 ^ k * 2 ^ k = a := by
  obtain ⟨c, rfl⟩ := ha
  have hpos : 0 < 2 ^ k := Nat.two_pow_pos k
  constructor
  · rintro ⟨h1, h2⟩
    have h3 : x / 2 ^ k = c := by
      apply Nat.div_eq_of_lt_le
      · rw [Nat.mul_comm]; exact h1
      · rw [Nat.succ_mul, Nat.mul_comm]; exact h2
    rw [h3, Nat.mul_comm]
  · intro h
    have := Nat.div_add_mod x (2 ^ k)
    have hlt := Nat.mod_lt x hpos
    rw [Nat.mul_comm] at h
    rw [h] at this
    omega

/-- Network containment as the stdlib computes it is interval membership. -/
theorem containsAddr_iff (n : Net) (hn : n.Valid) (x : Addr) (hx : x.Valid) :
    n.containsAddr x = true ↔ n.Denotes x := by
  unfold Net.containsAddr Net.Denotes
  by_cases hv : n.ver = x.ver
  · simp only [hv, ne_eq, not_true_eq_false, if_false, beq_iff_eq, true_and]
    have hx' : x.ip < 2 ^ n.ver.width := by rw [hv]; exact hx
    unfold Net.netmask
    rw [and_maskOf n.ver n.plen x.ip hn.1 hx', ← hv]
    exact (block_div hn.dvd).symm
  · have : x.ver ≠ n.ver := fun e => hv e.symm
    simp [hv, this]

theorem Net.Valid.last_lt {n : Net} (h : n.Valid) :
    n.addr + 2 ^ (n.ver.width - n.plen) ≤ 2 ^ n.ver.width := by
  have hd := h.dvd
  have hd2 : 2 ^ (n.ver.width - n.plen) ∣ 2 ^ n.ver.width := Nat.pow_dvd_pow 2 (by omega)
  obtain ⟨a, ha⟩ := hd
  obtain ⟨b, hb⟩ := hd2
  have hlt := h.2.1
  rw [ha, hb] at hlt ⊢
  have : a < b := Nat.lt_of_mul_lt_mul_left hlt
  calc _ = 2 ^ (n.ver.width - n.plen) * (a + 1) := by rw [Nat.mul_add, Nat.mul_one]
    _ ≤ _ := Nat.mul_le_mul_left _ this

theorem Net.Denotes.valid {n : Net} (h : n.Valid) {x : Addr} (hx : n.Denotes x) : x.Valid := by
  have := h.last_lt
  obtain ⟨h1, h2, h3⟩ := hx
  unfold Addr.Valid; rw [h1]; omega

theorem Net.Valid.denotes_self {n : Net} (_h : n.Valid) : n.Denotes n.networkAddress := by
  refine ⟨rfl, Nat.le_refl _, ?_⟩
  have := Nat.two_pow_pos (n.ver.width - n.plen)
  show n.addr < _; omega

theorem hostmask_eq (n : Net) (hp : n.plen ≤ n.ver.width) :
    n.hostmask = 2 ^ (n.ver.width - n.plen) - 1 := by
  apply Nat.eq_of_testBit_eq; intro i
  rw [testBit_hostmask n hp, Nat.testBit_two_pow_sub_one]

theorem broadcast_ip {n : Net} (h : n.Valid) :
    n.broadcast.ip = n.addr + (2 ^ (n.ver.width - n.plen) - 1) := by
  show n.addr ||| n.hostmask = _
  rw [hostmask_eq n h.1]
  obtain ⟨c, hc⟩ := h.dvd
  rw [hc, ← Nat.two_pow_add_eq_or_of_lt (by have := Nat.two_pow_pos (n.ver.width - n.plen); omega)]

theorem broadcast_denotes {n : Net} (h : n.Valid) : n.Denotes n.broadcast := by
  refine ⟨rfl, ?_, ?_⟩ <;> rw [broadcast_ip h] <;>
    have := Nat.two_pow_pos (n.ver.width - n.plen) <;> omega

/-- Two aligned blocks that share an address: one's endpoints lie in the other. -/
theorem overlaps_iff (n m : Net) (hn : n.Valid) (hm : m.Valid) :
    n.overlaps m = true ↔ ∃ x, n.Denotes x ∧ m.Denotes x := by
  have vn := Net.Denotes.valid hn hn.denotes_self
  have vm := Net.Denotes.valid hm hm.denotes_self
  have bn := Net.Denotes.valid hn (broadcast_denotes hn)
  have bm := Net.Denotes.valid hm (broadcast_denotes hm)
  unfold Net.overlaps
  simp only [Bool.or_eq_true, containsAddr_iff _ hm _ vn, containsAddr_iff _ hm _ bn,
    containsAddr_iff _ hn _ vm, containsAddr_iff _ hn _ bm]
  constructor
  · rintro (h | h | h | h)
    · exact ⟨_, hn.denotes_self, h⟩
    · exact ⟨_, broadcast_denotes hn, h⟩
    · exact ⟨_, h, hm.denotes_self⟩
    · exact ⟨_, h, broadcast_denotes hm⟩
  · rintro ⟨x, ⟨hv1, h1, h2⟩, ⟨hv2, h3, h4⟩⟩
    have hv : n.ver = m.ver := hv1.symm.trans hv2
    by_cases h : n.addr ≤ m.addr
    · right; right; left
      exact ⟨hv.symm, h, by show m.addr < _; omega⟩
    · left
      exact ⟨hv, by show m.addr ≤ n.addr; omega, by show n.addr < _; omega⟩

end Acltk
