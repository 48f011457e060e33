import Verif.Lemmas.Collapse
namespace Acltk

theorem netmask_eq {n : Net} (h : n.Valid) : n.netmask = 2 ^ n.ver.width - 2 ^ n.k := by
  unfold Net.netmask Ver.maskOf
  rw [Nat.xor_comm]
  have e : n.ver.allOnes >>> n.plen = 2 ^ n.k - 1 := by
    apply Nat.eq_of_testBit_eq; intro i
    rw [Nat.testBit_shiftRight, testBit_allOnes, Nat.testBit_two_pow_sub_one]
    unfold Net.k
    have := h.1
    simp; omega
  have hk : 2 ^ n.k ≤ 2 ^ n.ver.width := Nat.pow_le_pow_right (by omega) (Nat.sub_le _ _)
  have := Nat.two_pow_pos n.k
  rw [e, xor_allOnes n.ver (by omega)]
  omega

/-- Nested or disjoint. -/
theorem laminar {n m : Net} (hn : n.Valid) (hm : m.Valid) (hv : n.ver = m.ver) :
    Below n m ∨ Below m n ∨ (∀ x, n.Denotes x → m.Denotes x) ∨ (∀ x, m.Denotes x → n.Denotes x) := by
  -- wlog n.k ≤ m.k
  have key : ∀ {n m : Net}, n.Valid → m.Valid → n.ver = m.ver → n.k ≤ m.k →
      Below n m ∨ Below m n ∨ (∀ x, n.Denotes x → m.Denotes x) := by
    intro n m hn hm hv hk
    have dn : 2 ^ n.k ∣ n.addr := hn.dvd
    have dm : 2 ^ m.k ∣ m.addr := hm.dvd
    have hd : 2 ^ n.k ∣ 2 ^ m.k := Nat.pow_dvd_pow 2 hk
    have hpn := Nat.two_pow_pos n.k
    obtain ⟨c, hc⟩ := dn
    obtain ⟨d, hd'⟩ := Nat.dvd_trans hd dm
    obtain ⟨e, he⟩ := hd
    unfold Below
    show n.addr + 2 ^ n.k ≤ m.addr ∨ m.addr + 2 ^ m.k ≤ n.addr ∨ _
    by_cases h1 : c < d
    · left
      rw [hc, hd', ← Nat.mul_succ]
      exact Nat.mul_le_mul_left _ h1
    · by_cases h2 : d + e ≤ c
      · right; left
        rw [hc, hd', he, ← Nat.mul_add]
        exact Nat.mul_le_mul_left _ h2
      · right; right
        rintro x ⟨x1, x2, x3⟩
        change x.ip < n.addr + 2 ^ n.k at x3
        refine ⟨by rw [x1, hv], ?_, ?_⟩
        · have : 2 ^ n.k * d ≤ 2 ^ n.k * c := Nat.mul_le_mul_left _ (by omega)
          omega
        · show x.ip < m.addr + 2 ^ m.k
          have : 2 ^ n.k * (c + 1) ≤ 2 ^ n.k * (d + e) := Nat.mul_le_mul_left _ (by omega)
          rw [Nat.mul_succ, Nat.mul_add] at this
          omega
  rcases Nat.le_total n.k m.k with h | h
  · rcases key hn hm hv h with h | h | h
    · exact .inl h
    · exact .inr (.inl h)
    · exact .inr (.inr (.inl h))
  · rcases key hm hn hv.symm h with h | h | h
    · exact .inr (.inl h)
    · exact .inl h
    · exact .inr (.inr (.inr h))

theorem netLe_iff {a b : Net} : netLe a b = true ↔ a.addr < b.addr ∨ (a.addr = b.addr ∧ a.netmask ≤ b.netmask) := by
  simp [netLe]

theorem netLe_trans (a b c : Net) (h1 : netLe a b = true) (h2 : netLe b c = true) : netLe a c = true := by
  rw [netLe_iff] at *; omega

theorem netLe_total (a b : Net) : (netLe a b || netLe b a) = true := by
  rw [Bool.or_eq_true, netLe_iff, netLe_iff]; omega

/-- Inclusion of networks, in numbers. -/
theorem sub_iff {n m : Net} (hv : n.ver = m.ver) :
    (∀ x, n.Denotes x → m.Denotes x) ↔ m.addr ≤ n.addr ∧ n.addr + 2 ^ n.k ≤ m.addr + 2 ^ m.k := by
  have hp := Nat.two_pow_pos n.k
  constructor
  · intro h
    have h1 := h ⟨n.ver, n.addr⟩ ⟨rfl, Nat.le_refl _, by show n.addr < n.addr + 2 ^ n.k; omega⟩
    have h2 := h ⟨n.ver, n.addr + 2 ^ n.k - 1⟩ ⟨rfl, by show n.addr ≤ n.addr + 2 ^ n.k - 1; omega, by
      show n.addr + 2 ^ n.k - 1 < n.addr + 2 ^ n.k; omega⟩
    refine ⟨h1.2.1, ?_⟩
    have : n.addr + 2 ^ n.k - 1 < m.addr + 2 ^ m.k := h2.2.2
    omega
  · rintro ⟨h1, h2⟩ x ⟨x1, x2, x3⟩
    change x.ip < n.addr + 2 ^ n.k at x3
    exact ⟨by rw [x1, hv], by omega, by show x.ip < m.addr + 2 ^ m.k; omega⟩

theorem k_le_of_netmask_le {n m : Net} (hn : n.Valid) (hm : m.Valid) (hv : n.ver = m.ver)
    (h : n.netmask ≤ m.netmask) : m.k ≤ n.k := by
  rw [netmask_eq hn, netmask_eq hm, hv] at h
  have h1 : 2 ^ m.k ≤ 2 ^ m.ver.width := Nat.pow_le_pow_right (by omega) (Nat.sub_le _ _)
  have h2 : 2 ^ n.k ≤ 2 ^ n.ver.width := Nat.pow_le_pow_right (by omega) (Nat.sub_le _ _)
  rw [hv] at h2
  have h3 : 2 ^ m.k ≤ 2 ^ n.k := by omega
  exact (Nat.pow_le_pow_iff_right (by omega)).1 h3

theorem skipSubsumed_some (v : Ver) : ∀ (l : List Net) (last : Net),
    last.Valid → last.ver = v → (∀ n ∈ l, n.Valid ∧ n.ver = v) → (last :: l).Pairwise (fun a b => netLe a b = true) →
    (skipSubsumed (some last) l).Sublist l ∧ (last :: skipSubsumed (some last) l).Pairwise Below ∧
    ∀ x, CoversNets (last :: skipSubsumed (some last) l) x ↔ CoversNets (last :: l) x := by
  intro l
  induction l with
  | nil => intro last _ _ _ _; simp [skipSubsumed]
  | cons n t ih =>
    intro last hlv hlver hall hs
    have hn := hall n (by simp)
    have hle : netLe last n = true := by rw [List.pairwise_cons] at hs; exact hs.1 n (by simp)
    rw [netLe_iff] at hle
    unfold skipSubsumed
    rw [broadcast_ip hlv, broadcast_ip hn.1]
    have e1 : 2 ^ (last.ver.width - last.plen) = 2 ^ last.k := rfl
    have e2 : 2 ^ (n.ver.width - n.plen) = 2 ^ n.k := rfl
    have p1 := Nat.two_pow_pos last.k
    have p2 := Nat.two_pow_pos n.k
    rw [e1, e2]
    split
    · rename_i hb
      have hs' : (last :: t).Pairwise (fun a b => netLe a b = true) := by
        rw [List.pairwise_cons] at hs ⊢
        rw [List.pairwise_cons] at hs
        exact ⟨fun a ha => hs.1 a (by simp [ha]), hs.2.2⟩
      obtain ⟨i1, i2, i3⟩ := ih last hlv hlver (fun m hm => hall m (by simp [hm])) hs'
      refine ⟨i1.cons _, i2, fun x => ?_⟩
      rw [i3, coversNets_cons, coversNets_cons, coversNets_cons]
      have hsub : n.Denotes x → last.Denotes x := (sub_iff (hn.2.trans hlver.symm)).2 ⟨by omega, by omega⟩ x
      constructor
      · rintro (h | h)
        · exact .inl h
        · exact .inr (.inr h)
      · rintro (h | h | h)
        · exact .inl h
        · exact .inl (hsub h)
        · exact .inr h
    · rename_i hb
      have hs' : (n :: t).Pairwise (fun a b => netLe a b = true) := by
        rw [List.pairwise_cons] at hs; exact hs.2
      obtain ⟨i1, i2, i3⟩ := ih n hn.1 hn.2 (fun m hm => hall m (by simp [hm])) hs'
      have hbel : Below last n := by
        rcases laminar hlv hn.1 (hlver.trans hn.2.symm) with h | h | h | h
        · exact h
        · unfold Below at h
          rw [e2] at h; omega
        · have := (sub_iff (hlver.trans hn.2.symm)).1 h
          rcases hle with hlt | ⟨he, hm⟩
          · omega
          · have := k_le_of_netmask_le hlv hn.1 (hlver.trans hn.2.symm) hm
            have := Nat.pow_le_pow_right (n := 2) (by omega) this
            omega
        · have := (sub_iff (hn.2.trans hlver.symm)).1 h
          omega
      refine ⟨i1.cons_cons _, ?_, fun x => ?_⟩
      · rw [List.pairwise_cons]
        refine ⟨?_, i2⟩
        intro m hm
        rcases List.mem_cons.1 hm with rfl | hm
        · exact hbel
        · have hb2 : Below n m := by rw [List.pairwise_cons] at i2; exact i2.1 m hm
          unfold Below at hbel hb2 ⊢
          omega
      · rw [coversNets_cons, i3, coversNets_cons (n := last) (l := n :: t)]

theorem skipSubsumed_none (v : Ver) (l : List Net) (hall : ∀ n ∈ l, n.Valid ∧ n.ver = v)
    (hs : l.Pairwise (fun a b => netLe a b = true)) :
    (skipSubsumed none l).Sublist l ∧ (skipSubsumed none l).Pairwise Below ∧
    ∀ x, CoversNets (skipSubsumed none l) x ↔ CoversNets l x := by
  cases l with
  | nil => simp [skipSubsumed]
  | cons n t =>
    obtain ⟨h1, h2, h3⟩ := skipSubsumed_some v t n (hall n (by simp)).1 (hall n (by simp)).2
      (fun m hm => hall m (by simp [hm])) hs
    exact ⟨h1.cons_cons _, h2, h3⟩

/-! ## aggregation -/

/-- No two different members have the same supernet. -/
def NoSiblings (l : List Net) : Prop := ∀ n ∈ l, ∀ m ∈ l, supernet n = supernet m → n = m

theorem halves {b : Net} (hb : b.Valid) {j : Nat} (hk : b.k = j + 1) :
    ∃ l r : Net, l.Valid ∧ r.Valid ∧ l.ver = b.ver ∧ r.ver = b.ver ∧ l.k = j ∧ r.k = j ∧ l ≠ r ∧
      supernet l = b ∧ supernet r = b ∧
      (∀ x, b.Denotes x ↔ l.Denotes x ∨ r.Denotes x) := by
  have h1 := hb.1
  have h2 := hb.last_lt
  have hk' : b.ver.width - b.plen = j + 1 := hk
  have e : b.ver.width - (b.plen + 1) = j := by omega
  have hd : 2 ^ (j + 1) ∣ b.addr := by have := hb.dvd; rw [hk'] at this; exact this
  obtain ⟨c, hc⟩ := hd
  have hc0 := hc
  rw [hk', Nat.pow_succ] at h2
  rw [Nat.pow_succ, Nat.mul_assoc] at hc
  have hp := Nat.two_pow_pos j
  have hl : (⟨b.ver, b.addr, b.plen + 1⟩ : Net).Valid := mk_valid (by omega) hb.2.1 (by rw [e]; exact ⟨2 * c, hc⟩)
  have hr : (⟨b.ver, b.addr + 2 ^ j, b.plen + 1⟩ : Net).Valid := mk_valid (by omega) (by omega) (by
    rw [e]; exact ⟨2 * c + 1, by rw [hc, Nat.mul_succ]⟩)
  have kl : (⟨b.ver, b.addr, b.plen + 1⟩ : Net).k = j := e
  have kr : (⟨b.ver, b.addr + 2 ^ j, b.plen + 1⟩ : Net).k = j := e
  have sl : supernet ⟨b.ver, b.addr, b.plen + 1⟩ = b := by
    rw [supernet_eq hl (by simp), kl]
    simp only [Nat.add_sub_cancel]
    have : b.addr / 2 ^ (j + 1) * 2 ^ (j + 1) = b.addr := by
      rw [hc0, Nat.mul_div_cancel_left _ (Nat.two_pow_pos _), Nat.mul_comm]
    rw [this]
  have sr : supernet ⟨b.ver, b.addr + 2 ^ j, b.plen + 1⟩ = b := by
    rw [supernet_eq hr (by simp), kr]
    simp only [Nat.add_sub_cancel]
    have : (b.addr + 2 ^ j) / 2 ^ (j + 1) * 2 ^ (j + 1) = b.addr := by
      rw [hc0, Nat.mul_add_div (Nat.two_pow_pos _), Nat.div_eq_of_lt (by rw [Nat.pow_succ]; omega), Nat.add_zero,
        Nat.mul_comm]
    rw [this]
  have hne : (⟨b.ver, b.addr, b.plen + 1⟩ : Net) ≠ ⟨b.ver, b.addr + 2 ^ j, b.plen + 1⟩ := by
    intro h; have := congrArg Net.addr h; simp only at this; omega
  refine ⟨_, _, hl, hr, rfl, rfl, kl, kr, hne, sl, sr, ?_⟩
  intro x
  have := siblings hl hr (sl.trans sr.symm) hne x
  rw [sl] at this
  exact this

theorem eq_of_same {n m : Net} (hn : n.Valid) (hm : m.Valid) (hv : n.ver = m.ver) (ha : n.addr = m.addr) (hk : n.k = m.k) :
    n = m := by
  have h1 := hn.1; have h2 := hm.1
  unfold Net.k at hk
  have : n.plen = m.plen := by rw [hv] at hk h1; omega
  cases n; cases m; simp_all

/-- A list without siblings aggregates maximally. -/
theorem aggregated_of_noSiblings {v : Ver} {l : List Net} (hall : ∀ n ∈ l, n.Valid ∧ n.ver = v)
    (hs : NoSiblings l) : Aggregated v l := by
  suffices h : ∀ j, ∀ b : Net, b.Valid → b.ver = v → b.k = j → (∀ x, b.Denotes x → CoversNets l x) →
      ∃ n ∈ l, ∀ x, b.Denotes x → n.Denotes x from fun b hb hv hc => h _ b hb hv rfl hc
  intro j
  induction j with
  | zero =>
    intro b hb hv hk hc
    obtain ⟨n, hn, hx⟩ := hc _ hb.denotes_self
    refine ⟨n, hn, ?_⟩
    intro x hx'
    have : x = b.networkAddress := by
      obtain ⟨a1, a2, a3⟩ := hx'
      have : x.ip < b.addr + 2 ^ b.k := a3
      rw [hk] at this
      cases x; simp only [Net.networkAddress] at *
      congr; omega
    rw [this]; exact hx
  | succ j ih =>
    intro b hb hv hk hc
    obtain ⟨lo, hi, v1, v2, e1, e2, k1, k2, hne, s1, s2, hden⟩ := halves hb hk
    obtain ⟨n, hn, hsub⟩ := ih lo v1 (e1.trans hv) k1 (fun x hx => hc x ((hden x).2 (.inl hx)))
    obtain ⟨m, hm, hsub2⟩ := ih hi v2 (e2.trans hv) k2 (fun x hx => hc x ((hden x).2 (.inr hx)))
    -- a member containing one half contains the block or is that half
    have key : ∀ (half n : Net), half.Valid → half.ver = b.ver → half.k = j → supernet half = b →
        n ∈ l → (∀ x, half.Denotes x → n.Denotes x) → (∀ x, b.Denotes x → n.Denotes x) ∨ n = half := by
      intro half n vh eh kh sh hn hsub
      obtain ⟨nv, nver⟩ := hall n hn
      have hver : half.ver = n.ver := by rw [eh, hv, nver]
      have hx := (sub_iff hver).1 hsub
      have hp := Nat.two_pow_pos j
      by_cases hle : n.k ≤ j
      · right
        rw [kh] at hx
        have hpk : 2 ^ n.k ≤ 2 ^ j := Nat.pow_le_pow_right (by omega) hle
        have hpe : 2 ^ n.k = 2 ^ j := by omega
        have hke : n.k = j := (Nat.pow_right_inj (by omega)).1 hpe
        exact eq_of_same nv vh hver.symm (by omega) (by rw [hke, kh])
      · left
        have bvalid := hb
        -- nested: supernet of half is the smallest larger block
        have hbn : b.ver = n.ver := by rw [hv, nver]
        rcases laminar hb nv hbn with h | h | h | h
        · exfalso
          unfold Below at h
          have hs := sub_supernet vh vh.denotes_self
          rw [sh] at hs
          have h1 := hs.2.2
          have h2 := (hsub _ vh.denotes_self).2.1
          simp only [Net.networkAddress] at h1 h2
          omega
        · exfalso
          unfold Below at h
          have hs := sub_supernet vh vh.denotes_self
          rw [sh] at hs
          have h1 := hs.2.1
          have h2 := (hsub _ vh.denotes_self).2.2
          simp only [Net.networkAddress] at h1 h2
          omega
        · exact h
        · have h3 := (sub_iff hbn.symm).1 h
          have : 2 ^ b.k ≤ 2 ^ n.k := Nat.pow_le_pow_right (by omega) (by omega)
          exact (sub_iff hbn).2 ⟨by omega, by omega⟩
    rcases key lo n v1 e1 k1 s1 hn hsub with h | h
    · exact ⟨n, hn, h⟩
    · rcases key hi m v2 e2 k2 s2 hm hsub2 with h' | h'
      · exact ⟨m, hm, h'⟩
      · exfalso
        apply hne
        rw [← h, ← h']
        exact hs n hn m hm (by rw [h, h', s1, s2])

theorem below_disjoint {n m : Net} (h : Below n m) {x : Addr} (h1 : n.Denotes x) (h2 : m.Denotes x) : False := by
  unfold Below at h
  have := h1.2.2; have := h2.2.1; omega

theorem pairwise_unique {l : List Net} (h : l.Pairwise Below) {n m : Net} (hn : n ∈ l) (hm : m ∈ l)
    {x : Addr} (h1 : n.Denotes x) (h2 : m.Denotes x) : n = m := by
  induction l with
  | nil => cases hn
  | cons a t ih =>
    rw [List.pairwise_cons] at h
    rcases List.mem_cons.1 hn with e1 | e1 <;> rcases List.mem_cons.1 hm with e2 | e2
    · rw [e1, e2]
    · subst e1; exact (below_disjoint (h.1 _ e2) h1 h2).elim
    · subst e2; exact (below_disjoint (h.1 _ e1) h2 h1).elim
    · exact ih h.2 e1 e2

theorem canonical_mem {v : Ver} {l m : List Net} (hl : ∀ n ∈ l, n.Valid ∧ n.ver = v) (hm : ∀ n ∈ m, n.Valid ∧ n.ver = v)
    (hlb : l.Pairwise Below) (hla : Aggregated v l) (hma : Aggregated v m)
    (hc : ∀ x, CoversNets l x ↔ CoversNets m x) {n : Net} (hn : n ∈ l) : n ∈ m := by
  obtain ⟨nv, nver⟩ := hl n hn
  obtain ⟨q, hq, hnq⟩ := hma n nv nver (fun x hx => (hc x).1 ⟨n, hn, hx⟩)
  obtain ⟨qv, qver⟩ := hm q hq
  obtain ⟨r, hr, hqr⟩ := hla q qv qver (fun x hx => (hc x).2 ⟨q, hq, hx⟩)
  have hself := nv.denotes_self
  have : n = r := pairwise_unique hlb hn hr hself (hqr _ (hnq _ hself))
  subst this
  have hver := nver.trans qver.symm
  have a := (sub_iff hver).1 hnq
  have b := (sub_iff hver.symm).1 hqr
  have hk : n.k = q.k := (Nat.pow_right_inj (a := 2) (by omega)).1 (by omega)
  rw [eq_of_same nv qv hver (by omega) hk]
  exact hq

theorem below_nodup {l : List Net} (h : l.Pairwise Below) : l.Nodup := by
  refine h.imp ?_
  intro a b hab he
  subst he
  unfold Below at hab
  have := Nat.two_pow_pos (a.ver.width - a.plen); omega

/-- A set of addresses has exactly one sorted, disjoint, aggregated list of networks. -/
theorem canonical_unique {v : Ver} {l m : List Net} (hl : ∀ n ∈ l, n.Valid ∧ n.ver = v) (hm : ∀ n ∈ m, n.Valid ∧ n.ver = v)
    (hlb : l.Pairwise Below) (hmb : m.Pairwise Below) (hla : Aggregated v l) (hma : Aggregated v m)
    (hc : ∀ x, CoversNets l x ↔ CoversNets m x) : l = m := by
  have hp : l.Perm m := (List.perm_ext_iff_of_nodup (below_nodup hlb) (below_nodup hmb)).2 fun n =>
    ⟨canonical_mem hl hm hlb hla hma hc, canonical_mem hm hl hmb hma hla (fun x => (hc x).symm)⟩
  refine List.Perm.eq_of_pairwise (le := Below) ?_ hlb hmb hp
  intro a b _ _ h1 h2
  unfold Below at h1 h2
  have := Nat.two_pow_pos (a.ver.width - a.plen); have := Nat.two_pow_pos (b.ver.width - b.plen); omega

/-- It is also the shortest list of networks for its address set. -/
theorem canonical_shortest {v : Ver} {l m : List Net} (hl : ∀ n ∈ l, n.Valid ∧ n.ver = v) (hm : ∀ n ∈ m, n.Valid ∧ n.ver = v)
    (hlb : l.Pairwise Below) (hla : Aggregated v l) (hc : ∀ x, CoversNets l x ↔ CoversNets m x) :
    l.length ≤ m.length := by
  -- induct on l, removing from m a member inside the head
  suffices h : ∀ (k : List Net) (m : List Net), k.Nodup → (∀ n ∈ k, n ∈ l) → (∀ n ∈ m, n.Valid ∧ n.ver = v) →
      (∀ n ∈ m, ∀ x, n.Denotes x → CoversNets l x) → (∀ n ∈ k, CoversNets m n.networkAddress) →
      k.length ≤ m.length from
    h l m (below_nodup hlb) (fun _ h => h) hm (fun n hn x hx => (hc x).2 ⟨n, hn, hx⟩)
      (fun n hn => (hc _).1 ⟨n, hn, (hl n hn).1.denotes_self⟩)
  intro k
  induction k with
  | nil => intros; simp
  | cons a t ih =>
    intro m hnd hk hm hsub hcov
    obtain ⟨q, hq, hqx⟩ := hcov a (by simp)
    rw [List.nodup_cons] at hnd
    have hlen := List.length_erase_of_mem hq
    have hpos : 0 < m.length := List.length_pos_of_mem hq
    have := ih (m.erase q) hnd.2 (fun n hn => hk n (by simp [hn])) (fun n hn => hm n (List.mem_of_mem_erase hn))
      (fun n hn => hsub n (List.mem_of_mem_erase hn)) (by
        intro n hn
        obtain ⟨p, hp, hpx⟩ := hcov n (by simp [hn])
        refine ⟨p, ?_, hpx⟩
        have hne : p ≠ q := by
          rintro rfl
          obtain ⟨r, hr, hrx⟩ := hla p (hm p hp).1 (hm p hp).2 (hsub p hp)
          have h1 := pairwise_unique hlb hr (hk n (by simp [hn])) (hrx _ hpx) (hl n (hk n (by simp [hn]))).1.denotes_self
          have h2 := pairwise_unique hlb hr (hk a (by simp)) (hrx _ hqx) (hl a (hk a (by simp))).1.denotes_self
          rw [← h1, h2] at hn
          exact hnd.1 hn
        exact (List.mem_erase_of_ne hne).2 hp)
    simp only [List.length_cons]
    omega

theorem collapseInternal_ok {v : Ver} {nets : List Net} (h : ∀ n ∈ nets, n.Valid ∧ n.ver = v) :
    ∃ out, collapseInternal nets = .ok out ∧ (∀ n ∈ out, n.Valid ∧ n.ver = v) ∧ out.Pairwise Below ∧
      Aggregated v out ∧ ∀ x, CoversNets out x ↔ CoversNets nets x := by
  obtain ⟨inv, hc⟩ := mergeLoop_ok v nets.reverse [] ⟨fun n hn => h n (by simpa using hn), by simp, by simp⟩
  unfold collapseInternal
  generalize hd : mergeLoop nets.reverse [] = d at *
  have hvals : ∀ n ∈ d.map (·.2), n.Valid ∧ n.ver = v := by
    intro n hn
    obtain ⟨p, hp, rfl⟩ := List.mem_map.1 hn
    exact ⟨(inv.vals p hp).1, (inv.vals p hp).2.1⟩
  have hany : ¬ ((d.map (·.2)).any (fun a => (d.map (·.2)).any (fun b => decide (a.ver ≠ b.ver))) = true) := by
    rw [List.any_eq_true]
    rintro ⟨a, ha, hb⟩
    rw [List.any_eq_true] at hb
    obtain ⟨b, hb, hne⟩ := hb
    rw [decide_eq_true_eq] at hne
    exact hne ((hvals a ha).2.trans (hvals b hb).2.symm)
  simp only [if_neg hany]
  have hmem : ∀ n, n ∈ (d.map (·.2)).mergeSort netLe ↔ n ∈ d.map (·.2) := fun n => List.mem_mergeSort
  have hsort : ((d.map (·.2)).mergeSort netLe).Pairwise (fun a b => netLe a b = true) :=
    List.pairwise_mergeSort netLe_trans netLe_total _
  obtain ⟨s1, s2, s3⟩ := skipSubsumed_none v _ (fun n hn => hvals n ((hmem n).1 hn)) hsort
  refine ⟨_, rfl, ?_, s2, ?_, ?_⟩
  · intro n hn; exact hvals n ((hmem n).1 (s1.subset hn))
  · apply aggregated_of_noSiblings (fun n hn => hvals n ((hmem n).1 (s1.subset hn)))
    intro n hn m hm hs
    obtain ⟨p, hp, rfl⟩ := List.mem_map.1 ((hmem n).1 (s1.subset hn))
    obtain ⟨q, hq, rfl⟩ := List.mem_map.1 ((hmem m).1 (s1.subset hm))
    have := key_unique inv.keys hp hq (by rw [(inv.vals p hp).2.2, (inv.vals q hq).2.2, hs])
    rw [this]
  · intro x
    rw [s3]
    have : CoversNets ((d.map (·.2)).mergeSort netLe) x ↔ CoversNets (d.map (·.2)) x := by
      unfold CoversNets
      constructor
      · rintro ⟨n, hn, hx⟩; exact ⟨n, (hmem n).1 hn, hx⟩
      · rintro ⟨n, hn, hx⟩; exact ⟨n, (hmem n).2 hn, hx⟩
    rw [this, hc]
    unfold CoversNets
    simp

end Acltk
