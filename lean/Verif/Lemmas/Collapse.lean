import Verif.Model.Collapse
import Verif.Lemmas.Summarize
namespace Acltk

/-- Block exponent. -/
def Net.k (n : Net) : Nat := n.ver.width - n.plen

theorem Net.Valid.denotes_iff {n : Net} (h : n.Valid) (x : Addr) :
    n.Denotes x ↔ x.ver = n.ver ∧ x.ip / 2 ^ n.k = n.addr / 2 ^ n.k := by
  unfold Net.Denotes
  have hd := h.dvd
  rw [block_div hd]
  obtain ⟨c, hc⟩ := hd
  have hpos : 0 < 2 ^ n.k := Nat.two_pow_pos _
  show _ ∧ x.ip / 2 ^ n.k * 2 ^ n.k = n.addr ↔ _
  have hc' : n.addr = 2 ^ n.k * c := hc
  rw [hc', Nat.mul_div_cancel_left _ hpos, Nat.mul_comm (2 ^ n.k) c]
  constructor
  · rintro ⟨h1, h2⟩; exact ⟨h1, Nat.eq_of_mul_eq_mul_right hpos h2⟩
  · rintro ⟨h1, h2⟩; exact ⟨h1, by rw [h2]⟩

theorem Net.Valid.addr_eq {n : Net} (h : n.Valid) : n.addr = n.addr / 2 ^ n.k * 2 ^ n.k := h.aligned

theorem mk_valid {v : Ver} {a p : Nat} (hp : p ≤ v.width) (ha : a < 2 ^ v.width) (hd : 2 ^ (v.width - p) ∣ a) :
    (⟨v, a, p⟩ : Net).Valid := by
  refine ⟨hp, ha, ?_⟩
  show a &&& v.maskOf p = a
  rw [and_maskOf v p a hp ha, Nat.div_mul_cancel hd]

theorem supernet_eq {n : Net} (h : n.Valid) (hp : n.plen ≠ 0) :
    supernet n = ⟨n.ver, n.addr / 2 ^ (n.k + 1) * 2 ^ (n.k + 1), n.plen - 1⟩ := by
  unfold supernet
  rw [if_neg hp]
  congr 1
  apply Nat.eq_of_testBit_eq; intro i
  have h1 := h.1
  rw [Nat.testBit_and, Nat.testBit_shiftLeft, Nat.testBit_mul_two_pow, Nat.testBit_div_two_pow]
  unfold Net.netmask
  rw [testBit_maskOf]
  by_cases hi : n.k + 1 ≤ i
  · rw [Nat.sub_add_cancel hi]
    unfold Net.k at hi
    by_cases hw : n.ver.width ≤ i
    · rw [testBit_ge h.2.1 hw]; simp
    · have : decide (i - 1 < n.ver.width ∧ n.ver.width ≤ n.plen + (i - 1)) = true := by
        simp; omega
      simp [this, Net.k, hi]; intro _; omega
  · simp only [hi, decide_false, Bool.false_and]
    unfold Net.k at hi
    by_cases h0 : i ≥ 1
    · have : decide (i - 1 < n.ver.width ∧ n.ver.width ≤ n.plen + (i - 1)) = false := by
        simp; omega
      simp [this]
    · simp [h0]

theorem supernet_valid {n : Net} (h : n.Valid) : (supernet n).Valid := by
  by_cases hp : n.plen = 0
  · unfold supernet; rw [if_pos hp]; exact h
  · rw [supernet_eq h hp]
    have h1 := h.1
    apply mk_valid (by omega)
    · exact Nat.lt_of_le_of_lt (Nat.div_mul_le_self _ _) h.2.1
    · have : n.ver.width - (n.plen - 1) = n.k + 1 := by unfold Net.k; omega
      rw [this]; exact Nat.dvd_mul_left _ _

theorem supernet_ver (n : Net) : (supernet n).ver = n.ver := by
  unfold supernet; split <;> rfl

theorem supernet_denotes {n : Net} (h : n.Valid) (hp : n.plen ≠ 0) (x : Addr) :
    (supernet n).Denotes x ↔ x.ver = n.ver ∧ x.ip / 2 ^ n.k / 2 = n.addr / 2 ^ n.k / 2 := by
  rw [(supernet_valid h).denotes_iff, supernet_ver]
  have hk : (supernet n).k = n.k + 1 := by
    rw [supernet_eq h hp]; unfold Net.k; simp only; have := h.1; omega
  have ha : (supernet n).addr = n.addr / 2 ^ (n.k + 1) * 2 ^ (n.k + 1) := by rw [supernet_eq h hp]
  rw [hk, ha, Nat.mul_div_cancel _ (Nat.two_pow_pos _)]
  simp only [Nat.pow_succ, Nat.div_div_eq_div_mul]

theorem sub_supernet {n : Net} (h : n.Valid) {x : Addr} (hx : n.Denotes x) : (supernet n).Denotes x := by
  by_cases hp : n.plen = 0
  · unfold supernet; rw [if_pos hp]; exact hx
  · rw [supernet_denotes h hp]
    rw [h.denotes_iff] at hx
    exact ⟨hx.1, by rw [hx.2]⟩

/-- A network of prefix length 0 denotes every valid address of its version. -/
theorem denotes_zero {n : Net} (h : n.Valid) (hp : n.plen = 0) {x : Addr} (hv : x.ver = n.ver) (hx : x.Valid) :
    n.Denotes x := by
  rw [h.denotes_iff]
  refine ⟨hv, ?_⟩
  have hk : n.k = n.ver.width := by unfold Net.k; omega
  rw [hk]
  have h1 := h.2.1
  have h2 : x.ip < 2 ^ n.ver.width := by unfold Addr.Valid at hx; rw [hv] at hx; exact hx
  rw [Nat.div_eq_of_lt h1, Nat.div_eq_of_lt h2]

theorem zero_ext {n m : Net} (hn : n.Valid) (hm : m.Valid) (hv : n.ver = m.ver) (h1 : n.plen = 0) (h2 : m.plen = 0) :
    n = m := by
  have e : ∀ {q : Net}, q.Valid → q.plen = 0 → q.addr = 0 := by
    intro q hq h
    have := hq.addr_eq
    have hk : q.k = q.ver.width := by unfold Net.k; omega
    rw [hk, Nat.div_eq_of_lt hq.2.1] at this; simpa using this
  have := e hn h1; have := e hm h2
  cases n; cases m; simp_all

/-- Two different networks with the same supernet together denote exactly that supernet. -/
theorem siblings {n m : Net} (hn : n.Valid) (hm : m.Valid) (hs : supernet n = supernet m) (hne : n ≠ m) (x : Addr) :
    (supernet n).Denotes x ↔ n.Denotes x ∨ m.Denotes x := by
  constructor
  · intro hx
    have hv : n.ver = m.ver := by rw [← supernet_ver n, hs, supernet_ver m]
    have hxv := Net.Denotes.valid (supernet_valid hn) hx
    have hxver : x.ver = n.ver := by rw [← supernet_ver n]; exact hx.1
    by_cases h1 : n.plen = 0
    · exact .inl (denotes_zero hn h1 hxver hxv)
    by_cases h2 : m.plen = 0
    · exact .inr (denotes_zero hm h2 (by rw [hxver, hv]) hxv)
    have hp : n.plen = m.plen := by
      have e := congrArg Net.plen hs
      rw [supernet_eq hn h1, supernet_eq hm h2] at e
      simp only at e; omega
    have hk : n.k = m.k := by unfold Net.k; rw [hv, hp]
    have e1 := (supernet_denotes hn h1 x).1 hx
    rw [hs] at hx
    have e2 := (supernet_denotes hm h2 x).1 hx
    rw [hn.denotes_iff, hm.denotes_iff]
    rw [← hk] at e2 ⊢
    have hne' : n.addr / 2 ^ n.k ≠ m.addr / 2 ^ n.k := by
      intro he
      apply hne
      have a1 := hn.addr_eq
      have a2 := hm.addr_eq
      rw [← hk, ← he, ← a1] at a2
      clear a1 e1 e2 he hx hs
      cases n; cases m; simp_all
    have := e1.2; have := e2.2
    have : x.ip / 2 ^ n.k = n.addr / 2 ^ n.k ∨ x.ip / 2 ^ n.k = m.addr / 2 ^ n.k := by omega
    rcases this with h | h
    · exact .inl ⟨e1.1, h⟩
    · exact .inr ⟨e2.1, h⟩
  · rintro (h | h)
    · exact sub_supernet hn h
    · rw [hs]; exact sub_supernet hm h

/-! ## the merge loop -/

/-- Invariant of the dictionary: key is the supernet of the value, keys are distinct. -/
structure MergeInv (v : Ver) (toMerge : List Net) (d : List (Net × Net)) : Prop where
  todo : ∀ n ∈ toMerge, n.Valid ∧ n.ver = v
  vals : ∀ p ∈ d, p.2.Valid ∧ p.2.ver = v ∧ p.1 = supernet p.2
  keys : d.Pairwise (fun p q => p.1 ≠ q.1)

theorem dictGet_some {α β : Type} [DecidableEq α] {d : List (α × β)} {k : α} {b : β} (h : dictGet d k = some b) :
    (k, b) ∈ d := by
  unfold dictGet at h
  rw [Option.map_eq_some_iff] at h
  obtain ⟨p, hp, rfl⟩ := h
  have h1 := List.mem_of_find?_eq_some hp
  have h2 := List.find?_some hp
  simp at h2
  rw [← h2]; exact h1

theorem dictGet_none {α β : Type} [DecidableEq α] {d : List (α × β)} {k : α} (h : dictGet d k = none) :
    ∀ p ∈ d, p.1 ≠ k := by
  unfold dictGet at h
  rw [Option.map_eq_none_iff, List.find?_eq_none] at h
  intro p hp; simpa using h p hp

theorem mem_dictDel {α β : Type} [DecidableEq α] {d : List (α × β)} {k : α} {p : α × β} :
    p ∈ dictDel d k ↔ p ∈ d ∧ p.1 ≠ k := by
  unfold dictDel; simp

theorem coversNets_cons {n : Net} {l : List Net} {x : Addr} : CoversNets (n :: l) x ↔ n.Denotes x ∨ CoversNets l x := by
  simp [CoversNets, or_and_right, exists_or]

theorem coversNets_append {l m : List Net} {x : Addr} : CoversNets (l ++ m) x ↔ CoversNets l x ∨ CoversNets m x := by
  simp [CoversNets, or_and_right, exists_or]

theorem coversNets_map {d : List (Net × Net)} {x : Addr} :
    CoversNets (d.map (·.2)) x ↔ ∃ p ∈ d, p.2.Denotes x := by
  unfold CoversNets
  constructor
  · rintro ⟨n, hn, hx⟩
    obtain ⟨p, hp, rfl⟩ := List.mem_map.1 hn
    exact ⟨p, hp, hx⟩
  · rintro ⟨p, hp, hx⟩; exact ⟨p.2, List.mem_map.2 ⟨p, hp, rfl⟩, hx⟩

theorem key_unique {d : List (Net × Net)} (h : d.Pairwise (fun p q => p.1 ≠ q.1)) {p q : Net × Net}
    (hp : p ∈ d) (hq : q ∈ d) (he : p.1 = q.1) : p = q := by
  induction d with
  | nil => cases hp
  | cons a t ih =>
    rw [List.pairwise_cons] at h
    rcases List.mem_cons.1 hp with h1 | h1 <;> rcases List.mem_cons.1 hq with h2 | h2
    · rw [h1, h2]
    · subst h1; exact absurd he (h.1 _ h2)
    · subst h2; exact absurd he.symm (h.1 _ h1)
    · exact ih h.2 h1 h2

theorem mergeLoop_ok (v : Ver) (toMerge : List Net) (d : List (Net × Net)) (h : MergeInv v toMerge d) :
    MergeInv v [] (mergeLoop toMerge d) ∧
    ∀ x, CoversNets ((mergeLoop toMerge d).map (·.2)) x ↔ CoversNets toMerge x ∨ CoversNets (d.map (·.2)) x := by
  fun_induction mergeLoop toMerge d with
  | case1 d =>
    refine ⟨⟨by simp, h.vals, h.keys⟩, fun x => ?_⟩
    simp [CoversNets]
  | case2 d net rest hg ih =>
    have hnet := h.todo net (by simp)
    have inv : MergeInv v rest (d ++ [(supernet net, net)]) := by
      refine ⟨fun n hn => h.todo n (by simp [hn]), ?_, ?_⟩
      · intro p hp
        rcases List.mem_append.1 hp with hp | hp
        · exact h.vals p hp
        · simp at hp; subst hp; exact ⟨hnet.1, hnet.2, rfl⟩
      · rw [List.pairwise_append]
        refine ⟨h.keys, by simp, ?_⟩
        intro a ha b hb
        simp at hb; subst hb
        exact dictGet_none hg a ha
    obtain ⟨i1, i2⟩ := ih inv
    refine ⟨i1, fun x => ?_⟩
    rw [i2, List.map_append, coversNets_append, coversNets_cons]
    simp only [List.map_cons, List.map_nil, coversNets_cons]
    simp only [CoversNets, List.not_mem_nil, false_and, exists_false, or_false]
    constructor
    · rintro (h | h | h)
      · exact .inl (.inr h)
      · exact .inr h
      · exact .inl (.inl h)
    · rintro ((h | h) | h)
      · exact .inr (.inr h)
      · exact .inl h
      · exact .inr (.inl h)
  | case3 d net rest existing hg hne ih =>
    have hnet := h.todo net (by simp)
    have hmem := dictGet_some hg
    have hex := h.vals _ hmem
    simp only at hex
    have hsv := supernet_valid hnet.1
    have inv : MergeInv v (supernet net :: rest) (dictDel d (supernet net)) := by
      refine ⟨?_, fun p hp => h.vals p (mem_dictDel.1 hp).1, h.keys.filter _⟩
      intro n hn
      rcases List.mem_cons.1 hn with rfl | hn
      · exact ⟨hsv, by rw [supernet_ver]; exact hnet.2⟩
      · exact h.todo n (by simp [hn])
    obtain ⟨i1, i2⟩ := ih inv
    refine ⟨i1, fun x => ?_⟩
    rw [i2, coversNets_cons, coversNets_cons]
    have hsib := siblings hnet.1 hex.1 hex.2.2 (Ne.symm hne) x
    have hdel : CoversNets (d.map (·.2)) x ↔ existing.Denotes x ∨ CoversNets ((dictDel d (supernet net)).map (·.2)) x := by
      rw [coversNets_map, coversNets_map]
      constructor
      · rintro ⟨p, hp, hx⟩
        by_cases hk : p.1 = supernet net
        · left
          have := key_unique h.keys hp hmem hk
          rw [this] at hx; exact hx
        · exact .inr ⟨p, mem_dictDel.2 ⟨hp, hk⟩, hx⟩
      · rintro (hx | ⟨p, hp, hx⟩)
        · exact ⟨_, hmem, hx⟩
        · exact ⟨p, (mem_dictDel.1 hp).1, hx⟩
    rw [hdel, hsib]
    simp only [or_assoc, or_comm]
  | case4 d net rest existing hg hne ih =>
    have he : existing = net := by simpa using hne
    subst he
    have inv : MergeInv v rest d := ⟨fun n hn => h.todo n (by simp [hn]), h.vals, h.keys⟩
    obtain ⟨i1, i2⟩ := ih inv
    refine ⟨i1, fun x => ?_⟩
    rw [i2, coversNets_cons]
    constructor
    · rintro (h | h)
      · exact .inl (.inr h)
      · exact .inr h
    · rintro ((hx | hx) | hx)
      · right; rw [coversNets_map]; exact ⟨_, dictGet_some hg, hx⟩
      · exact .inl hx
      · exact .inr hx

end Acltk
