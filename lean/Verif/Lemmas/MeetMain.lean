import Verif.Lemmas.Meet
namespace Acltk

/-- Result wrapper: `r` is the boolean answer and it equals the truth of `P`. -/
def Answers (r : Py Bool) (P : Prop) : Prop := ∃ b, r = .ok b ∧ (b = true ↔ P)

theorem Answers.congr {r P Q} (h : Answers r P) (e : P ↔ Q) : Answers r Q := by
  obtain ⟨b, hb, hp⟩ := h; exact ⟨b, hb, hp.trans e⟩

theorem v4_of_wild {a w n} (h : Compat (.wild a w) (.net n)) : n.ver = .v4 := by
  cases hv : n.ver
  · rfl
  · exact (h.noV6r ⟨⟨_, _, .wild⟩, .inr ⟨n, hv, .net⟩⟩).elim

theorem v4_of_wild_host {a w} {x : Addr} (h : Compat (.wild a w) (.host x)) : x.ver = .v4 := by
  cases hv : x.ver
  · rfl
  · exact (h.noV6r ⟨⟨_, _, .wild⟩, .inl ⟨x, hv, .host⟩⟩).elim

/-- The shared-address part of the specification, for leaves. -/
def Share (a b : Host) : Prop := ∃ x, Covers a x ∧ Covers b x

theorem Share.symm {a b} : Share a b ↔ Share b a :=
  ⟨fun ⟨x, h1, h2⟩ => ⟨x, h2, h1⟩, fun ⟨x, h1, h2⟩ => ⟨x, h2, h1⟩⟩

theorem share_any {b : Host} (hb : IsLeaf b) (ho : Ordinary b) : Share .any b := by
  obtain ⟨x, hv, hx⟩ := leaf_inhabited hb ho
  exact ⟨x, .any hv, hx⟩

theorem share_iface {b : Host} {nm} (hb : IsLeaf b) (ho : Ordinary b) : Share (.iface nm) b := by
  obtain ⟨x, hv, hx⟩ := leaf_inhabited hb ho
  exact ⟨x, .iface hv, hx⟩

theorem share_wild_host {a w x} (h : Compat (.wild a w) (.host x)) :
    wildHost a w x = true ↔ Share (.wild a w) (.host x) := by
  have hv := v4_of_wild_host h
  have hx : x.Valid := (h.right _ .host).1
  rw [wildHost_iff]
  unfold Share
  simp only [covers_wild, covers_host]
  constructor
  · intro hA; exact ⟨x, ⟨hv, by simpa [Addr.Valid, hv, Ver.width] using hx, hA⟩, rfl⟩
  · rintro ⟨y, ⟨_, _, hA⟩, rfl⟩; exact hA

theorem share_wild_net {a w n} (h : Compat (.wild a w) (.net n)) :
    wildNet a w n = true ↔ Share (.wild a w) (.net n) := by
  have hv := v4_of_wild h
  have hn : n.Valid := (h.right _ .net).1
  have ha : a < 2 ^ 32 := (h.left _ .wild).1.1
  rw [wildNet_iff a w n hn (by rw [hv]; exact ha)]
  unfold Share
  simp only [covers_wild, covers_net]
  constructor
  · rintro ⟨x, hx, hA⟩
    have := Net.Denotes.valid hn hx
    have hxv : x.ver = .v4 := hx.1.trans hv
    exact ⟨x, ⟨hxv, by simpa [Addr.Valid, hxv, Ver.width] using this, hA⟩, hx⟩
  · rintro ⟨x, ⟨_, _, hA⟩, hx⟩; exact ⟨x, hx, hA⟩

theorem share_any4_net {n} (ho : Ordinary (.net n)) :
    decide (n.ver = .v4) = true ↔ Share .any4 (.net n) := by
  have hn : n.Valid := (ho _ .net).1
  unfold Share; simp only [covers_any4, covers_net, decide_eq_true_eq]
  constructor
  · intro hv; exact ⟨_, ⟨hv, Net.Denotes.valid hn hn.denotes_self⟩, hn.denotes_self⟩
  · rintro ⟨x, ⟨h1, _⟩, h2⟩; exact h2.1.symm.trans h1

theorem share_any6_net {n} (ho : Ordinary (.net n)) :
    decide (n.ver = .v6) = true ↔ Share .any6 (.net n) := by
  have hn : n.Valid := (ho _ .net).1
  unfold Share; simp only [covers_any6, covers_net, decide_eq_true_eq]
  constructor
  · intro hv; exact ⟨_, ⟨hv, Net.Denotes.valid hn hn.denotes_self⟩, hn.denotes_self⟩
  · rintro ⟨x, ⟨h1, _⟩, h2⟩; exact h2.1.symm.trans h1

theorem share_any4_host {x} (ho : Ordinary (.host x)) :
    decide (x.ver = .v4) = true ↔ Share .any4 (.host x) := by
  unfold Share; simp only [covers_any4, covers_host, decide_eq_true_eq]
  constructor
  · intro hv; exact ⟨_, ⟨hv, (ho _ .host).1⟩, rfl⟩
  · rintro ⟨x, ⟨h1, _⟩, rfl⟩; exact h1

theorem share_any6_host {x} (ho : Ordinary (.host x)) :
    decide (x.ver = .v6) = true ↔ Share .any6 (.host x) := by
  unfold Share; simp only [covers_any6, covers_host, decide_eq_true_eq]
  constructor
  · intro hv; exact ⟨_, ⟨hv, (ho _ .host).1⟩, rfl⟩
  · rintro ⟨x, ⟨h1, _⟩, rfl⟩; exact h1

theorem share_any4_wild {a w} (ho : Ordinary (.wild a w)) : Share .any4 (.wild a w) :=
  ⟨⟨.v4, a⟩, .any4 (ho _ .wild).1.1, .wild (fun _ _ => rfl) (ho _ .wild).1.1⟩

theorem not_share_any6_wild {a w} : ¬ Share .any6 (.wild a w) := by
  rintro ⟨x, h1, h2⟩
  rw [covers_any6] at h1; rw [covers_wild] at h2
  exact absurd (h1.1.symm.trans h2.1) (by decide)

theorem share_any4_any4 : Share .any4 .any4 := ⟨⟨.v4, 0⟩, .any4 (by decide), .any4 (by decide)⟩
theorem share_any6_any6 : Share .any6 .any6 := ⟨⟨.v6, 0⟩, .any6 (by decide), .any6 (by decide)⟩
theorem not_share_any4_any6 : ¬ Share .any4 .any6 := by
  rintro ⟨x, h1, h2⟩
  rw [covers_any4] at h1; rw [covers_any6] at h2
  exact absurd (h1.1.symm.trans h2.1) (by decide)

theorem share_net_host {n x} (h : Compat (.net n) (.host x)) :
    n.containsAddr x = true ↔ Share (.net n) (.host x) := by
  rw [containsAddr_iff n (h.left _ .net).1 x (h.right _ .host).1]
  unfold Share; simp only [covers_net, covers_host]
  exact ⟨fun h => ⟨x, h, rfl⟩, fun ⟨_, h, e⟩ => e ▸ h⟩

theorem share_net_net {n m} (h : Compat (.net n) (.net m)) :
    (n.overlaps m || m.overlaps n) = true ↔ Share (.net n) (.net m) := by
  have h1 := overlaps_iff n m (h.left _ .net).1 (h.right _ .net).1
  have h2 := overlaps_iff m n (h.right _ .net).1 (h.left _ .net).1
  unfold Share; simp only [covers_net, Bool.or_eq_true, h1, h2]
  constructor
  · rintro (h | ⟨x, a, b⟩)
    · exact h
    · exact ⟨x, b, a⟩
  · exact .inl

theorem share_host_host {x y : Addr} : decide (x = y) = true ↔ Share (.host x) (.host y) := by
  unfold Share; simp only [covers_host, decide_eq_true_eq]
  exact ⟨fun h => ⟨x, rfl, h⟩, fun ⟨_, a, b⟩ => a ▸ b⟩

theorem answers_ok {b : Bool} {P : Prop} (h : b = true ↔ P) : Answers (.ok b) P := ⟨b, rfl, h⟩
theorem answers_true {P : Prop} (h : P) : Answers (.ok true) P := ⟨true, rfl, by simp [h]⟩
theorem answers_false {P : Prop} (h : ¬ P) : Answers (.ok false) P := ⟨false, rfl, by simp [h]⟩

/-- Leaves with leaves: two frames are enough. -/
theorem meet_leaf_leaf {a b : Host} (ha : IsLeaf a) (hb : IsLeaf b) (h : Compat a b) (fuel : Nat) :
    Answers (meet (fuel + 2) a b) (Share a b) := by
  cases a with
  | obj => exact (not_isLeaf_obj ha).elim
  | group => exact (not_isLeaf_group ha).elim
  | cafAny => exact absurd rfl (h.left _ ha).2.1
  | cafAny4 => exact absurd rfl (h.left _ ha).2.2.1
  | cafAny6 => exact absurd rfl (h.left _ ha).2.2.2
  | any => simp only [meet]; exact answers_true (share_any hb h.right)
  | iface => simp only [meet]; exact answers_true (share_iface hb h.right)
  | net n =>
    cases b with
    | obj => exact (not_isLeaf_obj hb).elim
    | group => exact (not_isLeaf_group hb).elim
    | cafAny => exact absurd rfl (h.right _ hb).2.1
    | cafAny4 => exact absurd rfl (h.right _ hb).2.2.1
    | cafAny6 => exact absurd rfl (h.right _ hb).2.2.2
    | any => simp only [meet]; exact answers_true (Share.symm.1 (share_any ha h.left))
    | iface => simp only [meet]; exact answers_true (Share.symm.1 (share_iface ha h.left))
    | any4 => simp only [meet]; exact (answers_ok (share_any4_net h.left)).congr Share.symm
    | any6 => simp only [meet]; exact (answers_ok (share_any6_net h.left)).congr Share.symm
    | net m => simp only [meet]; exact answers_ok (share_net_net h)
    | host x => simp only [meet]; exact answers_ok (share_net_host h)
    | wild x w => simp only [meet]; exact (answers_ok (share_wild_net h.symm)).congr Share.symm
  | host n =>
    cases b with
    | obj => exact (not_isLeaf_obj hb).elim
    | group => exact (not_isLeaf_group hb).elim
    | cafAny => exact absurd rfl (h.right _ hb).2.1
    | cafAny4 => exact absurd rfl (h.right _ hb).2.2.1
    | cafAny6 => exact absurd rfl (h.right _ hb).2.2.2
    | any => simp only [meet]; exact answers_true (Share.symm.1 (share_any ha h.left))
    | iface => simp only [meet]; exact answers_true (Share.symm.1 (share_iface ha h.left))
    | any4 => simp only [meet]; exact (answers_ok (share_any4_host h.left)).congr Share.symm
    | any6 => simp only [meet]; exact (answers_ok (share_any6_host h.left)).congr Share.symm
    | net m => simp only [meet]; exact (answers_ok (share_net_host h.symm)).congr Share.symm
    | host x => simp only [meet]; exact answers_ok share_host_host
    | wild x w => simp only [meet]; exact (answers_ok (share_wild_host h.symm)).congr Share.symm
  | any4 =>
    cases b with
    | obj => exact (not_isLeaf_obj hb).elim
    | group => exact (not_isLeaf_group hb).elim
    | cafAny => exact absurd rfl (h.right _ hb).2.1
    | cafAny4 => exact absurd rfl (h.right _ hb).2.2.1
    | cafAny6 => exact absurd rfl (h.right _ hb).2.2.2
    | any => simp only [meet]; exact answers_true (Share.symm.1 (share_any ha h.left))
    | iface => simp only [meet]; exact answers_true (Share.symm.1 (share_iface ha h.left))
    | any4 => simp only [meet]; exact answers_true share_any4_any4
    | any6 => simp only [meet]; exact answers_false not_share_any4_any6
    | net m => simp only [meet]; exact answers_ok (share_any4_net h.right)
    | host x => simp only [meet]; exact answers_ok (share_any4_host h.right)
    | wild x w => simp only [meet]; exact answers_true (share_any4_wild h.right)
  | any6 =>
    cases b with
    | obj => exact (not_isLeaf_obj hb).elim
    | group => exact (not_isLeaf_group hb).elim
    | cafAny => exact absurd rfl (h.right _ hb).2.1
    | cafAny4 => exact absurd rfl (h.right _ hb).2.2.1
    | cafAny6 => exact absurd rfl (h.right _ hb).2.2.2
    | any => simp only [meet]; exact answers_true (Share.symm.1 (share_any ha h.left))
    | iface => simp only [meet]; exact answers_true (Share.symm.1 (share_iface ha h.left))
    | any4 => simp only [meet]; exact answers_false (fun h => not_share_any4_any6 (Share.symm.1 h))
    | any6 => simp only [meet]; exact answers_true share_any6_any6
    | net m => simp only [meet]; exact answers_ok (share_any6_net h.right)
    | host x => simp only [meet]; exact answers_ok (share_any6_host h.right)
    | wild x w => simp only [meet]; exact answers_false not_share_any6_wild
  | wild a w =>
    cases b with
    | obj => exact (not_isLeaf_obj hb).elim
    | group => exact (not_isLeaf_group hb).elim
    | cafAny => exact absurd rfl (h.right _ hb).2.1
    | cafAny4 => exact absurd rfl (h.right _ hb).2.2.1
    | cafAny6 => exact absurd rfl (h.right _ hb).2.2.2
    | any => simp only [meet]; exact answers_true (Share.symm.1 (share_any ha h.left))
    | iface => simp only [meet]; exact answers_true (Share.symm.1 (share_iface ha h.left))
    | any4 => simp only [meet]; exact answers_true (Share.symm.1 (share_any4_wild h.left))
    | any6 => simp only [meet]; exact answers_false (fun h => not_share_any6_wild (Share.symm.1 h))
    | net m => simp only [meet]; exact answers_ok (share_wild_net h)
    | host x => simp only [meet]; exact answers_ok (share_wild_host h)
    | wild x w => exact (h.oneWild ⟨⟨_, _, .wild⟩, ⟨_, _, .wild⟩⟩).elim

theorem meets_leaf_iff {a b : Host} (hb : IsLeaf b) (ob : Ordinary b) : Meets a b ↔ Share a b := by
  unfold Meets
  constructor
  · rintro (h | h)
    · obtain ⟨x, hv, hx⟩ := leaf_inhabited hb ob
      refine ⟨x, ?_, hx⟩
      have key : ∀ c d, Leaf c d → Covers d x → Covers c x := by
        intro c d hl; induction hl with
        | obj hm _ ih => intro hc; exact .obj hm (ih hc)
        | group hm _ ih => intro hc; exact .group hm (ih hc)
        | _ => exact id
      rcases h with h | ⟨nm, h⟩
      · exact key _ _ h (.any hv)
      · exact key _ _ h (.iface hv)
    · exact h
  · exact .inr

theorem leaf_or (a : Host) : IsLeaf a ∨ (∃ nm l, a = .obj nm l) ∨ (∃ nm l, a = .group nm l) := by
  cases a <;> first | exact .inr (.inl ⟨_, _, rfl⟩) | exact .inr (.inr ⟨_, _, rfl⟩) | exact .inl (by constructor)

theorem share_obj {nm l b} : Share (.obj nm l) b ↔ ∃ h ∈ l, Share h b := by
  unfold Share; simp only [covers_obj]
  exact ⟨fun ⟨x, ⟨h, hm, hc⟩, hb⟩ => ⟨h, hm, x, hc, hb⟩, fun ⟨h, hm, x, hc, hb⟩ => ⟨x, ⟨h, hm, hc⟩, hb⟩⟩

theorem share_group {nm l b} : Share (.group nm l) b ↔ ∃ h ∈ l, Share h b := by
  unfold Share; simp only [covers_group]
  exact ⟨fun ⟨x, ⟨h, hm, hc⟩, hb⟩ => ⟨h, hm, x, hc, hb⟩, fun ⟨h, hm, x, hc, hb⟩ => ⟨x, ⟨h, hm, hc⟩, hb⟩⟩

theorem hasAny_obj {nm l} : HasAny (.obj nm l) ↔ ∃ h ∈ l, HasAny h := by
  unfold HasAny; simp only [leaf_obj]; grind

theorem hasAny_group {nm l} : HasAny (.group nm l) ↔ ∃ h ∈ l, HasAny h := by
  unfold HasAny; simp only [leaf_group]; grind

theorem meets_obj {nm l b} : Meets (.obj nm l) b ↔ ∃ h ∈ l, Meets h b := by
  unfold Meets; rw [hasAny_obj]
  have := @share_obj nm l b; unfold Share at this; rw [this]; grind

theorem meets_group {nm l b} : Meets (.group nm l) b ↔ ∃ h ∈ l, Meets h b := by
  unfold Meets; rw [hasAny_group]
  have := @share_group nm l b; unfold Share at this; rw [this]; grind

/-- Any host on the left, a leaf on the right. -/
theorem meet_any_leaf (fuel : Nat) : ∀ {a b : Host}, IsLeaf b → Compat a b → a.depth + 1 ≤ fuel →
    Answers (meet fuel a b) (Share a b) := by
  induction fuel with
  | zero => intro a b _ _ h; omega
  | succ fuel ih =>
    intro a b hb h hf
    rcases leaf_or a with ha | ⟨nm, l, rfl⟩ | ⟨nm, l, rfl⟩
    · have := depth_pos a
      obtain ⟨k, rfl⟩ : ∃ k, fuel = k + 1 := ⟨fuel - 1, by omega⟩
      exact meet_leaf_leaf ha hb h k
    · simp only [meet]
      have := loopAny_spec (fun i => meet fuel i b) (fun i => Share i b) l (by
        intro i hi
        have hd := depth_mem hi
        exact ih hb (h.mono fun l hl => .obj hi hl) (by simp only [Host.depth] at hf; omega))
      exact Answers.congr this share_obj.symm
    · simp only [meet]
      have := loopAny_spec (fun i => meet fuel i b) (fun i => Share i b) l (by
        intro i hi
        have hd := depth_mem hi
        exact ih hb (h.mono fun l hl => .group hi hl) (by simp only [Host.depth] at hf; omega))
      exact Answers.congr this share_group.symm

/-- A leaf other than `any`/interface against a group or object: flip. -/
theorem meet_leaf_flip {a b : Host} (fuel : Nat) (ha : IsLeaf a) (h : Compat a b)
    (hb : (∃ nm l, b = .obj nm l) ∨ (∃ nm l, b = .group nm l)) (hna : ¬ HasAny a) :
    meet (fuel + 1) a b = meet fuel b a := by
  rw [hasAny_leaf ha] at hna
  have h2 := h.left _ ha
  rcases hb with ⟨nm, l, rfl⟩ | ⟨nm, l, rfl⟩ <;>
  cases a <;> first
    | (simp at hna; done)
    | (simp at h2; done)
    | rfl
    | exact (not_isLeaf_obj ha).elim
    | exact (not_isLeaf_group ha).elim

theorem meet_main (fuel : Nat) : ∀ {a b : Host}, Compat a b → a.depth + b.depth + 1 ≤ fuel →
    Answers (meet fuel a b) (Meets a b) := by
  induction fuel with
  | zero => intro a b _ h; omega
  | succ fuel ih =>
    intro a b h hf
    rcases leaf_or a with ha | ⟨nm, l, rfl⟩ | ⟨nm, l, rfl⟩
    · rcases leaf_or b with hb | hb
      · have := meet_any_leaf (fuel + 1) hb h (by have := depth_pos b; omega)
        exact this.congr (meets_leaf_iff hb h.right).symm
      · by_cases hna : HasAny a
        · have : meet (fuel + 1) a b = .ok true := by
            rcases (hasAny_leaf ha).1 hna with rfl | ⟨nm, rfl⟩ <;> rfl
          rw [this]; exact answers_true (.inl hna)
        · rw [meet_leaf_flip fuel ha h hb hna]
          have := meet_any_leaf fuel ha h.symm (by have := depth_pos a; omega)
          refine this.congr ?_
          unfold Meets
          rw [Share.symm]; unfold Share
          simp [hna]
    · simp only [meet]
      have := loopAny_spec (fun i => meet fuel i b) (fun i => Meets i b) l (by
        intro i hi
        have hd := depth_mem hi
        exact ih (h.mono fun l hl => .obj hi hl) (by simp only [Host.depth] at hf; omega))
      exact Answers.congr this meets_obj.symm
    · simp only [meet]
      have := loopAny_spec (fun i => meet fuel i b) (fun i => Meets i b) l (by
        intro i hi
        have hd := depth_mem hi
        exact ih (h.mono fun l hl => .group hi hl) (by simp only [Host.depth] at hf; omega))
      exact Answers.congr this meets_group.symm

/-! ### CAF keywords -/

theorem cafAny_main (fuel : Nat) : ∀ {b : Host}, b.depth ≤ fuel →
    Answers (meet fuel .cafAny b) (GroupLeaf b .any ∨ GroupLeaf b .cafAny) := by
  induction fuel with
  | zero => intro b h; have := depth_pos b; omega
  | succ fuel ih =>
    intro b hf
    have base : ∀ {b : Host}, (∀ nm l, b ≠ .group nm l) → b ≠ .any → b ≠ .cafAny →
        ¬ (GroupLeaf b .any ∨ GroupLeaf b .cafAny) := by
      intro b h1 h2 h3 h
      rcases h with h | h <;> cases h <;> simp_all
    cases b with
    | any => exact answers_true (.inl .self)
    | cafAny => exact answers_true (.inr .self)
    | group nm l =>
      simp only [meet, Host.isNetworkAny]
      have := loopAny_spec (fun i => meet fuel .cafAny i)
        (fun i => GroupLeaf i .any ∨ GroupLeaf i .cafAny) l (by
        intro i hi
        have hd := depth_mem hi
        exact ih (by simp only [Host.depth] at hf; omega))
      refine Answers.congr this ?_
      constructor
      · rintro ⟨i, hi, h | h⟩
        · exact .inl (.group hi h)
        · exact .inr (.group hi h)
      · rintro (h | h) <;> cases h with | group hm h => exact ⟨_, hm, by simp [h]⟩
    | _ => exact answers_false (base (by simp) (by simp) (by simp))

theorem cafAny4_main (fuel : Nat) : ∀ {b : Host}, b.depth ≤ fuel →
    Answers (meet fuel .cafAny4 b) (GroupLeaf b .any4 ∨ GroupLeaf b .cafAny4) := by
  induction fuel with
  | zero => intro b h; have := depth_pos b; omega
  | succ fuel ih =>
    intro b hf
    have base : ∀ {b : Host}, (∀ nm l, b ≠ .group nm l) → b ≠ .any4 → b ≠ .cafAny4 →
        ¬ (GroupLeaf b .any4 ∨ GroupLeaf b .cafAny4) := by
      intro b h1 h2 h3 h
      rcases h with h | h <;> cases h <;> simp_all
    cases b with
    | any4 => exact answers_true (.inl .self)
    | cafAny4 => exact answers_true (.inr .self)
    | group nm l =>
      simp only [meet, Host.isNetworkAny4]
      have := loopAny_spec (fun i => meet fuel .cafAny4 i)
        (fun i => GroupLeaf i .any4 ∨ GroupLeaf i .cafAny4) l (by
        intro i hi
        have hd := depth_mem hi
        exact ih (by simp only [Host.depth] at hf; omega))
      refine Answers.congr this ?_
      constructor
      · rintro ⟨i, hi, h | h⟩
        · exact .inl (.group hi h)
        · exact .inr (.group hi h)
      · rintro (h | h) <;> cases h with | group hm h => exact ⟨_, hm, by simp [h]⟩
    | _ => exact answers_false (base (by simp) (by simp) (by simp))

theorem cafAny6_main (fuel : Nat) : ∀ {b : Host}, b.depth ≤ fuel →
    Answers (meet fuel .cafAny6 b) (GroupLeaf b .any6 ∨ GroupLeaf b .cafAny6) := by
  induction fuel with
  | zero => intro b h; have := depth_pos b; omega
  | succ fuel ih =>
    intro b hf
    have base : ∀ {b : Host}, (∀ nm l, b ≠ .group nm l) → b ≠ .any6 → b ≠ .cafAny6 →
        ¬ (GroupLeaf b .any6 ∨ GroupLeaf b .cafAny6) := by
      intro b h1 h2 h3 h
      rcases h with h | h <;> cases h <;> simp_all
    cases b with
    | any6 => exact answers_true (.inl .self)
    | cafAny6 => exact answers_true (.inr .self)
    | group nm l =>
      simp only [meet, Host.isNetworkAny6]
      have := loopAny_spec (fun i => meet fuel .cafAny6 i)
        (fun i => GroupLeaf i .any6 ∨ GroupLeaf i .cafAny6) l (by
        intro i hi
        have hd := depth_mem hi
        exact ih (by simp only [Host.depth] at hf; omega))
      refine Answers.congr this ?_
      constructor
      · rintro ⟨i, hi, h | h⟩
        · exact .inl (.group hi h)
        · exact .inr (.group hi h)
      · rintro (h | h) <;> cases h with | group hm h => exact ⟨_, hm, by simp [h]⟩
    | _ => exact answers_false (base (by simp) (by simp) (by simp))

/-! ### termination for every pair of hosts -/

theorem loopAny_total {α : Type} (f : α → Py Bool) (l : List α)
    (h : ∀ x ∈ l, ∃ r, f x = .ok r) : ∃ r, loopAny f l = .ok r := by
  obtain ⟨r, hr, _⟩ := loopAny_spec f (fun x => f x = .ok true) l (by
    intro x hx; obtain ⟨r, hr⟩ := h x hx; exact ⟨r, hr, by rw [hr]; simp⟩)
  exact ⟨r, hr⟩

theorem meet_leaf_total {a b : Host} (ha : IsLeaf a) (hb : IsLeaf b)
    (h : ¬ (HasWild a ∧ HasWild b)) (fuel : Nat) : ∃ r, meet (fuel + 2) a b = .ok r := by
  cases a with
  | obj => exact (not_isLeaf_obj ha).elim
  | group => exact (not_isLeaf_group ha).elim
  | wild a w =>
    cases b with
    | obj => exact (not_isLeaf_obj hb).elim
    | group => exact (not_isLeaf_group hb).elim
    | wild => exact (h ⟨⟨_, _, .wild⟩, ⟨_, _, .wild⟩⟩).elim
    | _ => exact ⟨_, rfl⟩
  | _ =>
    cases b with
    | obj => exact (not_isLeaf_obj hb).elim
    | group => exact (not_isLeaf_group hb).elim
    | _ => exact ⟨_, rfl⟩

theorem HasWild.mono {a b : Host} (h : HasWild a) (hl : ∀ l, Leaf a l → Leaf b l) : HasWild b := by
  obtain ⟨x, y, h⟩ := h; exact ⟨x, y, hl _ h⟩

theorem meet_any_leaf_total (fuel : Nat) : ∀ {a b : Host}, IsLeaf b → ¬ (HasWild a ∧ HasWild b) →
    a.depth + 1 ≤ fuel → ∃ r, meet fuel a b = .ok r := by
  induction fuel with
  | zero => intro a b _ _ h; omega
  | succ fuel ih =>
    intro a b hb h hf
    rcases leaf_or a with ha | ⟨nm, l, rfl⟩ | ⟨nm, l, rfl⟩
    · have := depth_pos a
      obtain ⟨k, rfl⟩ : ∃ k, fuel = k + 1 := ⟨fuel - 1, by omega⟩
      exact meet_leaf_total ha hb h k
    · simp only [meet]
      apply loopAny_total
      intro i hi
      have hd := depth_mem hi
      exact ih hb (fun ⟨h1, h2⟩ => h ⟨h1.mono fun l hl => .obj hi hl, h2⟩)
        (by simp only [Host.depth] at hf; omega)
    · simp only [meet]
      apply loopAny_total
      intro i hi
      have hd := depth_mem hi
      exact ih hb (fun ⟨h1, h2⟩ => h ⟨h1.mono fun l hl => .group hi hl, h2⟩)
        (by simp only [Host.depth] at hf; omega)

theorem meet_total (fuel : Nat) : ∀ {a b : Host}, ¬ (HasWild a ∧ HasWild b) →
    a.depth + b.depth + 1 ≤ fuel → ∃ r, meet fuel a b = .ok r := by
  induction fuel with
  | zero => intro a b _ h; omega
  | succ fuel ih =>
    intro a b h hf
    have hpa := depth_pos a
    have hpb := depth_pos b
    rcases leaf_or a with ha | ⟨nm, l, rfl⟩ | ⟨nm, l, rfl⟩
    · rcases leaf_or b with hb | hb
      · exact meet_any_leaf_total (fuel + 1) hb h (by omega)
      · cases a with
        | obj => exact (not_isLeaf_obj ha).elim
        | group => exact (not_isLeaf_group ha).elim
        | any => exact ⟨_, rfl⟩
        | iface => exact ⟨_, rfl⟩
        | cafAny => obtain ⟨r, hr, _⟩ := cafAny_main (fuel + 1) (b := b) (by omega); exact ⟨r, hr⟩
        | cafAny4 => obtain ⟨r, hr, _⟩ := cafAny4_main (fuel + 1) (b := b) (by omega); exact ⟨r, hr⟩
        | cafAny6 => obtain ⟨r, hr, _⟩ := cafAny6_main (fuel + 1) (b := b) (by omega); exact ⟨r, hr⟩
        | _ =>
          have := fun a ha h => meet_any_leaf_total fuel (a := b) (b := a) ha h (by omega)
          have := this _ ha (fun ⟨x, y⟩ => h ⟨y, x⟩)
          rcases hb with ⟨nm, l, rfl⟩ | ⟨nm, l, rfl⟩ <;> exact this
    · simp only [meet]
      apply loopAny_total
      intro i hi
      have hd := depth_mem hi
      exact ih (fun ⟨h1, h2⟩ => h ⟨h1.mono fun l hl => .obj hi hl, h2⟩)
        (by simp only [Host.depth] at hf; omega)
    · simp only [meet]
      apply loopAny_total
      intro i hi
      have hd := depth_mem hi
      exact ih (fun ⟨h1, h2⟩ => h ⟨h1.mono fun l hl => .group hi hl, h2⟩)
        (by simp only [Host.depth] at hf; omega)

/-- More frames never change an answer. -/
theorem meet_mono (fuel : Nat) : ∀ {a b : Host} {r : Bool}, meet fuel a b = .ok r →
    meet (fuel + 1) a b = .ok r := by
  induction fuel with
  | zero => intro a b r h; simp [meet] at h
  | succ fuel ih =>
    have loop : ∀ (f g : Host → Py Bool) (l : List Host) (r : Bool),
        (∀ x r, f x = .ok r → g x = .ok r) → loopAny f l = .ok r → loopAny g l = .ok r := by
      intro f g l r hfg
      induction l with
      | nil => exact id
      | cons x xs ihl =>
        intro h
        unfold loopAny at h ⊢
        cases hx : f x with
        | error e => rw [hx] at h; simp at h
        | ok b =>
          rw [hfg x b hx]
          rw [hx] at h
          cases b with
          | true => exact h
          | false => exact ihl h
    intro a b r h
    cases a with
    | any => exact h
    | iface => exact h
    | obj nm l => simp only [meet] at h ⊢; exact loop _ _ _ _ (fun x r hx => ih hx) h
    | group nm l => simp only [meet] at h ⊢; exact loop _ _ _ _ (fun x r hx => ih hx) h
    | cafAny =>
      unfold meet at h ⊢
      simp only at h ⊢
      split <;> rename_i hb <;> simp only [hb, if_true] at h
      · exact h
      · cases b <;> first | exact h | exact loop _ _ _ _ (fun x r hx => ih hx) h
    | cafAny4 =>
      unfold meet at h ⊢
      simp only at h ⊢
      split <;> rename_i hb <;> simp only [hb, if_true] at h
      · exact h
      · cases b <;> first | exact h | exact loop _ _ _ _ (fun x r hx => ih hx) h
    | cafAny6 =>
      unfold meet at h ⊢
      simp only at h ⊢
      split <;> rename_i hb <;> simp only [hb, if_true] at h
      · exact h
      · cases b <;> first | exact h | exact loop _ _ _ _ (fun x r hx => ih hx) h
    | _ => cases b <;> first | exact h | exact ih h

end Acltk
