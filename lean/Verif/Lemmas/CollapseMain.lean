import Verif.Lemmas.CollapseSort
namespace Acltk

theorem findRanges_ok (w : Nat) : ∀ (t : List Nat) (first last : Nat), first ≤ last → last < 2 ^ w → (∀ x ∈ t, x < 2 ^ w) →
    (∀ r ∈ findRanges first last t, r.1 ≤ r.2 ∧ r.2 < 2 ^ w) ∧
    ∀ x, (∃ r ∈ findRanges first last t, r.1 ≤ x ∧ x ≤ r.2) ↔ (first ≤ x ∧ x ≤ last) ∨ x ∈ t := by
  intro t
  induction t with
  | nil => intro first last h hl _; simp [findRanges]; omega
  | cons ip t ih =>
    intro first last h hl hall
    have hip := hall ip (by simp)
    unfold findRanges
    split
    · obtain ⟨h1, h2⟩ := ih ip ip (Nat.le_refl _) hip (fun x hx => hall x (by simp [hx]))
      refine ⟨?_, ?_⟩
      · intro r hr
        rcases List.mem_cons.1 hr with rfl | hr
        · exact ⟨h, hl⟩
        · exact h1 r hr
      · intro x
        simp only [List.mem_cons, exists_eq_or_imp, h2]
        constructor
        · rintro (h | h | h)
          · exact .inl h
          · right; left; omega
          · exact .inr (.inr h)
        · rintro (h | h | h)
          · exact .inl h
          · right; left; omega
          · exact .inr (.inr h)
    · rename_i hn
      have hn' : ip = last + 1 := by simpa using hn
      obtain ⟨h1, h2⟩ := ih first ip (by omega) hip (fun x hx => hall x (by simp [hx]))
      refine ⟨h1, fun x => ?_⟩
      rw [h2, List.mem_cons]
      constructor
      · rintro (h | h)
        · by_cases hx : x = ip
          · exact .inr (.inl hx)
          · left; omega
        · exact .inr (.inr h)
      · rintro (h | h | h)
        · left; omega
        · left; omega
        · exact .inr h

theorem summarizeAll_ok (v : Ver) : ∀ (l : List (Nat × Nat)), (∀ r ∈ l, r.1 ≤ r.2 ∧ r.2 < 2 ^ v.width) →
    ∃ out, summarizeAll v l = .ok out ∧ (∀ n ∈ out, n.Valid ∧ n.ver = v) ∧
      ∀ x : Addr, CoversNets out x ↔ x.ver = v ∧ ∃ r ∈ l, r.1 ≤ x.ip ∧ x.ip ≤ r.2 := by
  intro l
  induction l with
  | nil => intro _; exact ⟨[], rfl, by simp, by simp [CoversNets]⟩
  | cons r t ih =>
    intro h
    obtain ⟨a, b⟩ := r
    obtain ⟨h1, h2⟩ := h (a, b) (by simp)
    obtain ⟨m, i1, i2, i3⟩ := ih (fun r hr => h r (by simp [hr]))
    obtain ⟨l, s1, s2, _, s4⟩ := summarizeFrom_ok v b h2 _ a (Nat.le_refl _) (by simp only at h1; omega)
    refine ⟨l ++ m, ?_, ?_, ?_⟩
    · simp only [summarizeAll, summarizeRange]
      simp only at h1
      rw [if_neg (by simp), if_neg (by omega), s1]
      simp [i1]
    · intro n hn
      rcases List.mem_append.1 hn with hn | hn
      · exact ⟨(s2 n hn).1, (s2 n hn).2.1⟩
      · exact i2 n hn
    · intro x
      rw [coversNets_append, s4, i3]
      simp only [List.mem_cons, exists_eq_or_imp]
      constructor
      · rintro (⟨h, h'⟩ | ⟨h, h'⟩)
        · exact ⟨h, .inl h'⟩
        · exact ⟨h, .inr h'⟩
      · rintro ⟨h, h' | h'⟩
        · exact .inl ⟨h, h'⟩
        · exact .inr ⟨h, h'⟩

theorem mem_dedup {α : Type} [DecidableEq α] {l : List α} {a : α} : a ∈ dedup l ↔ a ∈ l := by
  induction l with
  | nil => simp [dedup]
  | cons b t ih =>
    unfold dedup
    split
    · rename_i h
      rw [ih, List.mem_cons]
      constructor
      · exact .inr
      · rintro (rfl | h')
        · exact h
        · exact h'
    · simp [ih]

theorem summarizeIps_ok {v : Ver} {ips : List Addr} (h : ∀ a ∈ ips, a.Valid ∧ a.ver = v) :
    ∃ out, summarizeIps ips = .ok out ∧ (∀ n ∈ out, n.Valid ∧ n.ver = v) ∧
      ∀ x : Addr, CoversNets out x ↔ x ∈ ips := by
  unfold summarizeIps
  have hmem : ∀ a, a ∈ (dedup ips).mergeSort (fun a b => decide (a.ip ≤ b.ip)) ↔ a ∈ ips := by
    intro a; rw [List.mem_mergeSort, mem_dedup]
  generalize (dedup ips).mergeSort (fun a b => decide (a.ip ≤ b.ip)) = l at hmem
  cases l with
  | nil =>
    refine ⟨[], rfl, by simp, fun x => ?_⟩
    rw [← hmem]; simp [CoversNets]
  | cons a t =>
    have ha := h a ((hmem a).1 (by simp))
    have hval : ∀ b ∈ a :: t, b.ip < 2 ^ v.width ∧ b.ver = v := by
      intro b hb
      have := h b ((hmem b).1 hb)
      exact ⟨by have h1 := this.1; unfold Addr.Valid at h1; rw [this.2] at h1; exact h1, this.2⟩
    obtain ⟨r1, r2⟩ := findRanges_ok v.width (t.map (·.ip)) a.ip a.ip (Nat.le_refl _) (hval a (by simp)).1 (by
      intro x hx
      obtain ⟨b, hb, rfl⟩ := List.mem_map.1 hx
      exact (hval b (by simp [hb])).1)
    simp only
    rw [ha.2]
    obtain ⟨out, s1, s2, s3⟩ := summarizeAll_ok v _ r1
    refine ⟨out, s1, s2, fun x => ?_⟩
    rw [s3, r2, ← hmem, List.mem_cons]
    constructor
    · rintro ⟨hv, h | h⟩
      · left
        have : x.ip = a.ip := by omega
        cases x; cases a; simp_all
      · right
        obtain ⟨b, hb, he⟩ := List.mem_map.1 h
        have hbv := (hval b (by simp [hb])).2
        have : x = b := by cases x; cases b; simp_all
        rw [this]; exact hb
    · rintro (rfl | hx)
      · exact ⟨ha.2, .inl ⟨Nat.le_refl _, Nat.le_refl _⟩⟩
      · exact ⟨(hval x (by simp [hx])).2, .inr (List.mem_map.2 ⟨x, hx, rfl⟩)⟩

/-- Version and validity of a collapse item. -/
def WItem.Ok (v : Ver) : WItem → Prop
  | .addr a => a.Valid ∧ a.ver = v
  | .net n => n.Valid ∧ n.ver = v

theorem lastVer {α : Type} {l : List α} {f : α → Ver} {v : Ver} (h : ∀ a ∈ l, f a = v) :
    (l.getLast?.map f).getD v = v := by
  cases hl : l.getLast? with
  | none => rfl
  | some a => simp [h a (List.mem_of_getLast? hl)]

theorem net_single {n : Net} (_hn : n.Valid) (hp : n.plen = n.ver.width) (x : Addr) :
    n.Denotes x ↔ x = n.networkAddress := by
  have hk : n.ver.width - n.plen = 0 := by omega
  unfold Net.Denotes Net.networkAddress
  rw [hk]
  constructor
  · rintro ⟨a, b, c⟩; cases x; simp only at *; congr; omega
  · rintro rfl; exact ⟨rfl, Nat.le_refl _, by show n.addr < n.addr + 1; omega⟩

theorem splitItems_ok (v : Ver) : ∀ (items : List WItem) (ips : List Addr) (nets : List Net),
    (∀ it ∈ items, it.Ok v) → (∀ a ∈ ips, a.Valid ∧ a.ver = v) → (∀ n ∈ nets, n.Valid ∧ n.ver = v) →
    ∃ ips' nets', splitItems items ips nets = .ok (ips', nets') ∧
      (∀ a ∈ ips', a.Valid ∧ a.ver = v) ∧ (∀ n ∈ nets', n.Valid ∧ n.ver = v) ∧
      ∀ x, (x ∈ ips' ∨ CoversNets nets' x) ↔ (x ∈ ips ∨ CoversNets nets x) ∨ ∃ it ∈ items, it.Covers x := by
  intro items
  induction items with
  | nil => intro ips nets _ h1 h2; exact ⟨ips, nets, rfl, h1, h2, by simp⟩
  | cons it t ih =>
    intro ips nets hall h1 h2
    have hit := hall it (by simp)
    have ht : ∀ it ∈ t, it.Ok v := fun i hi => hall i (by simp [hi])
    cases it with
    | addr a =>
      unfold splitItems
      rw [hit.2, lastVer (fun a ha => (h1 a ha).2)]
      rw [if_neg (by simp)]
      obtain ⟨i, n, e, p1, p2, p3⟩ := ih (ips ++ [a]) nets ht (by
        intro b hb
        rcases List.mem_append.1 hb with hb | hb
        · exact h1 b hb
        · simp at hb; subst hb; exact hit) h2
      refine ⟨i, n, e, p1, p2, fun x => ?_⟩
      rw [p3]
      simp only [List.mem_append, List.mem_cons, List.not_mem_nil, or_false, exists_eq_or_imp, WItem.Covers]
      simp only [or_assoc, or_comm, or_left_comm]
    | net n =>
      unfold splitItems
      split
      · rename_i hp
        rw [hit.2, lastVer (fun a ha => (h1 a ha).2)]
        rw [if_neg (by simp)]
        obtain ⟨i, m, e, p1, p2, p3⟩ := ih (ips ++ [n.networkAddress]) nets ht (by
          intro b hb
          rcases List.mem_append.1 hb with hb | hb
          · exact h1 b hb
          · simp at hb; subst hb; exact ⟨Net.Denotes.valid hit.1 hit.1.denotes_self, hit.2⟩) h2
        refine ⟨i, m, e, p1, p2, fun x => ?_⟩
        rw [p3]
        simp only [List.mem_append, List.mem_cons, List.not_mem_nil, or_false, exists_eq_or_imp, WItem.Covers,
          net_single hit.1 hp]
        simp only [or_assoc, or_comm, or_left_comm]
      · rw [hit.2, lastVer (fun a ha => (h2 a ha).2)]
        rw [if_neg (by simp)]
        obtain ⟨i, m, e, p1, p2, p3⟩ := ih ips (nets ++ [n]) ht h1 (by
          intro b hb
          rcases List.mem_append.1 hb with hb | hb
          · exact h2 b hb
          · simp at hb; subst hb; exact hit)
        refine ⟨i, m, e, p1, p2, fun x => ?_⟩
        rw [p3, coversNets_append, coversNets_cons]
        have hnil : CoversNets [] x ↔ False := by simp [CoversNets]
        simp only [List.mem_cons, exists_eq_or_imp, WItem.Covers, hnil, or_false]
        simp only [or_assoc, or_comm, or_left_comm]

theorem collapseAddresses_ok {v : Ver} {items : List WItem} (h : ∀ it ∈ items, it.Ok v) :
    ∃ out, collapseAddresses items = .ok out ∧ (∀ n ∈ out, n.Valid ∧ n.ver = v) ∧ out.Pairwise Below ∧
      Aggregated v out ∧ ∀ x, CoversNets out x ↔ ∃ it ∈ items, it.Covers x := by
  obtain ⟨ips, nets, e, p1, p2, p3⟩ := splitItems_ok v items [] [] h (by simp) (by simp)
  obtain ⟨addrs, s1, s2, s3⟩ := summarizeIps_ok p1
  obtain ⟨out, c1, c2, c3, c4, c5⟩ := collapseInternal_ok (v := v) (nets := addrs ++ nets) (by
    intro n hn
    rcases List.mem_append.1 hn with hn | hn
    · exact s2 n hn
    · exact p2 n hn)
  refine ⟨out, ?_, c2, c3, c4, fun x => ?_⟩
  · simp only [collapseAddresses, e, s1, c1]
  · rw [c5, coversNets_append, s3, p3]
    have hnil : CoversNets [] x ↔ False := by simp [CoversNets]
    simp [hnil]

end Acltk
