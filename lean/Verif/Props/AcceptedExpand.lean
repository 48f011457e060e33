import Verif.Model.ExpandFilter
import Verif.Props.AcceptedFilter
import Verif.Props.AcceptedHosts
import Verif.Props.ExpandFilter
import Verif.Props.PfHosts
/-!
# C92: expanding before filtering, for whatever texts are accepted
-/
namespace Acltk.Accepted
open Acltk Acltk.Lookup Acltk.Detect Acltk.DetectText Acltk.Caf Acltk.ExpandFilter
open Acltk.ConfigFilter (Holds StatedNat Names select)

variable {T : Type}

theorem selM_expands {K : Nat} {e : Expr} {x x' : Entry} (hf : ∀ f, RuleIn f e → LeafRule (fun _ => True) K f)
    (hx : EntryExpands x x') (hflat : ∀ h, HostOf h x → FlatObjects h) (hk : NoKeyword e ∨ ∀ h, HostOf h x → NoAnyObject h) :
    SelM e x ↔ SelM e x' := by
  induction e with
  | rule f =>
    obtain ⟨-, w1, w2, -, -⟩ := hf f .rule
    have key : ∀ h h', HostOf h x → Expands h h' → (Hit f.src.host h ↔ Hit f.src.host h') ∧ (Hit f.dst.host h ↔ Hit f.dst.host h') := by
      intro h h' hh hE
      refine ⟨says_expands w1 hE (hflat h hh) ?_, says_expands w2 hE (hflat h hh) ?_⟩
      · rcases hk with hk | hk
        · exact Or.inl fun k hm => (hk f .rule k hm).1
        · exact Or.inr (hk h hh)
      · rcases hk with hk | hk
        · exact Or.inl fun k hm => (hk f .rule k hm).2
        · exact Or.inr (hk h hh)
    cases x with
    | rule r =>
      cases x' with
      | nat => cases hx
      | rule r' =>
        obtain ⟨h1, h2, h3⟩ := hx
        simp only [SelM]
        rw [h1, (key _ _ (Or.inl rfl) h2).1, (key _ _ (Or.inr rfl) h3).2]
    | nat n =>
      cases x' with
      | rule => cases hx
      | nat n' =>
        simp only [SelM]
        exact selects_expands hx key
  | block e ih => exact ih (fun f h => hf f (.block h)) (hk.imp (fun hk f h => hk f (.block h)) id)
  | op o a b i1 i2 =>
    have i1 := i1 (fun f h => hf f (.opl h)) (hk.imp (fun hk f h => hk f (.opl h)) id)
    have i2 := i2 (fun f h => hf f (.opr h)) (hk.imp (fun hk f h => hk f (.opr h)) id)
    cases o <;> simp only [SelM, i1, i2]

theorem bothSides_expands {D : Nat} {x x' : Entry} (hx : EntryExpands x x') (hflat : ∀ h, HostOf h x → FlatObjects h)
    (ho : BothSides x) (hd : EntryDepth D x) : BothSides x' ∧ EntryDepth D x' := by
  cases x with
  | rule r =>
    cases x' with
    | nat => cases hx
    | rule r' =>
      obtain ⟨h1, h2, h3⟩ := hx
      exact ⟨trivial, Nat.le_trans (depth_expands h2 (hflat _ (Or.inl rfl))) hd.1,
        Nat.le_trans (depth_expands h3 (hflat _ (Or.inr rfl))) hd.2⟩
  | nat n =>
    cases x' with
    | rule => cases hx
    | nat n' => exact entry_expands (x := .nat n) (x' := .nat n') hx hflat ho hd

/-- The entries of a configuration. -/
def EntryAt (cfg : Cfg (Nat × Pf.Parsed T)) (k : Nat) (x : Entry) : Prop := RuleAt cfg k x ∨ NatAt cfg k x

/-- The lists of a configuration and the objects in them. -/
structure Loaded (cfg : Cfg (Nat × Pf.Parsed T)) (heap : Oid → Entry) : Prop where
  rules : ∀ o, o ∈ (ids cfg).1 ↔ ∃ x, RuleAt cfg o x
  nats : ∀ o, o ∈ (ids cfg).2.1 ++ (ids cfg).2.2.1 ++ (ids cfg).2.2.2 ↔ ∃ x, NatAt cfg o x
  behind : ∀ o x, EntryAt cfg o x → heap o = x
  both : ∀ o x, EntryAt cfg o x → BothSides x
  depth : ∃ D, ∀ o x, EntryAt cfg o x → EntryDepth D x
  flat : ∀ o x, EntryAt cfg o x → ∀ h, HostOf h x → FlatObjects h

theorem entry_both {cfg : Cfg (Nat × Pf.Parsed T)} : ∀ o x, EntryAt cfg o x → BothSides x := by
  rintro o x (h | h)
  · cases cfg <;> (obtain ⟨r, -, rfl⟩ := h; trivial)
  · cases cfg with
    | fwsm => obtain ⟨i, n, -, -, rfl⟩ := h; exact ⟨rfl, rfl⟩
    | ios => exact h.elim
    | pfsense => exact h.elim

theorem loaded (g : Guard) (xml : String → Option Pf.Elem) (v : Pf.Env T) (config : String) (cfg : Cfg (Nat × Pf.Parsed T))
    (hc : detect g (PfFilter.parser xml v) config = .config cfg) :
    Loaded cfg (heapOf cfg) ∧ ∀ n fuel filter e rest, CafText.parse g n filter = .ok e rest →
      select g (PfFilter.parser xml v) (PfFilter.filter fuel) n fuel filter config = some (filterOn fuel (heapOf cfg) cfg e) := by
  cases cfg with
  | fwsm items =>
    obtain ⟨u, hp⟩ := detect_inv hc
    have hi := FwsmText.parseFile_items hp
    obtain ⟨D, hD⟩ := CafFilter.depth_bound items
    obtain ⟨E, hE⟩ := ConfigFilter.nat_depth items
    refine ⟨⟨fwsm_rules items, fwsm_nats items, ?_, entry_both, ⟨D + E, ?_⟩, ?_⟩, ?_⟩
    · rintro o x (⟨r, h, rfl⟩ | ⟨i, n, h, h', rfl⟩)
      · show ConfigFilter.heap items o = _
        unfold ConfigFilter.heap CafFilter.natEntry CafFilter.heap
        rw [h]; rfl
      · show ConfigFilter.heap items o = _
        unfold ConfigFilter.heap
        rw [(ConfigFilter.natEntry_holds items o n).2 ⟨i, h, h'⟩]
        exact ConfigFilter.natObj_stated (fwsm_hostNodes hi (List.mem_of_getElem? h) h')
    · rintro o x (⟨r, h, rfl⟩ | ⟨i, n, h, h', rfl⟩)
      · exact ConfigFilter.entryDepth_mono (hD r (List.mem_of_getElem? h)) (by omega)
      · exact ConfigFilter.entryDepth_mono (hE i (List.mem_of_getElem? h) n h') (by omega)
    · rintro o x (⟨r, h, rfl⟩ | ⟨i, n, h, h', rfl⟩) y hy
      · have hm := List.mem_of_getElem? h
        rcases hy with rfl | rfl
        · exact (C94_fwsm_hosts g _ u items hp _ hm _ (.src r)).flat
        · exact (C94_fwsm_hosts g _ u items hp _ hm _ (.dst r)).flat
      · have hm := List.mem_of_getElem? h
        have key : ∀ z, Names z = some (some y) → z = some (.host y) := by
          intro z hz
          unfold Names at hz
          split at hz
          · cases hz; rfl
          · cases hz
        have hy' : n.real.src = some (.host y) ∨ n.real.dst = some (.host y) ∨ n.mapped.src = some (.host y) ∨
            n.mapped.dst = some (.host y) := by
          obtain ⟨s, hs | hs, h | h⟩ := hy <;> cases hs
          · exact .inl (key _ h)
          · exact .inr (.inl (key _ h))
          · exact .inr (.inr (.inl (key _ h)))
          · exact .inr (.inr (.inr (key _ h)))
        refine (C94_fwsm_hosts g _ u items hp i hm y ?_).flat
        cases h' with
        | twice => exact .nat _ _ hy'
        | object w l _ d => exact .objectNat _ _ _ _ _ hy'
    · intro n fuel filter e rest hf
      unfold select
      rw [hf, hc]
      rfl
  | ios items =>
    obtain ⟨u, hp⟩ := detect_inv hc
    have hi := IosText.parseFile_items hp
    obtain ⟨D, hD⟩ := IosConfig.depth_bound (IosText.rulesOf items)
    obtain ⟨n1, n2, n3⟩ := ConfigFilter.ios_noNat items (ios_noNat' hi)
    refine ⟨⟨?_, ?_, ?_, entry_both, ⟨D, ?_⟩, ?_⟩, ?_⟩
    · intro o
      show o ∈ (IosConfig.build items).base.rules ↔ _
      rw [IosConfig.build_rules items (ios_noBase hi)]
      exact range_rules _ _ _
    · intro o
      simp [ids, n1, n2, n3, NatAt]
    · rintro o x (⟨r, h, rfl⟩ | h)
      · show IosConfig.heap items o = _
        unfold IosConfig.heap; rw [h]; rfl
      · exact h.elim
    · rintro o x (⟨r, h, rfl⟩ | h)
      · exact hD r (List.mem_of_getElem? h)
      · exact h.elim
    · rintro o x (⟨r, h, rfl⟩ | h) y hy
      · have := (IosText.rulesOf_ok hi r (List.mem_of_getElem? h)).2
        rcases hy with rfl | rfl
        · exact this.1.flat
        · exact this.2.flat
      · exact h.elim
    · intro n fuel filter e rest hf
      unfold select
      rw [hf, hc]
      rfl
  | pfsense cc =>
    obtain ⟨m, p⟩ := cc
    obtain ⟨D, hD⟩ := PfFilter.depth_bound p.rules
    obtain ⟨n1, n2, n3⟩ := PfFilter.nat_build m p
    refine ⟨⟨?_, ?_, ?_, entry_both, ⟨D, ?_⟩, ?_⟩, ?_⟩
    · intro o
      show o ∈ (PfFilter.build m p).rules ↔ _
      rw [PfFilter.rules_build]
      exact range_rules _ _ _
    · intro o
      simp [ids, n1, n2, n3, NatAt]
    · rintro o x (⟨r, h, rfl⟩ | h)
      · show PfFilter.heap p o = _
        unfold PfFilter.heap; rw [h]; rfl
      · exact h.elim
    · rintro o x (⟨r, h, rfl⟩ | h)
      · exact hD r (List.mem_of_getElem? h)
      · exact h.elim
    · have hp : ∃ root, Pf.parse v root = .ok p := by
        have := detect_inv hc
        simp only at this
        unfold PfFilter.parser at this
        split at this
        · cases this
        · rename_i root _
          split at this
          · cases this
          · rename_i p' hp'; cases this; exact ⟨root, hp'⟩
      obtain ⟨root, hp⟩ := hp
      rintro o x (⟨r, h, rfl⟩ | h) y hy
      · have hm := List.mem_of_getElem? h
        rcases hy with rfl | rfl
        · exact (Pf.C94_pfsense_hosts v root p hp _ (.src r hm)).1.flat
        · exact (Pf.C94_pfsense_hosts v root p hp _ (.dst r hm)).1.flat
      · exact h.elim
    · intro n fuel filter e rest hf
      unfold select
      rw [hf, hc]
      rfl

/-- **C92**, for whatever filter text and whatever configuration text are accepted, of any kind: if the objects of the configuration
have become those of `heap'` by expanding groups (any of them, once or several times), the filter delivers, given enough stack, the
same rules and NAT entries as before, unless it uses `ANY`, `ANY4` or `ANY6` and a group has a network object that stands for
everything. -/
theorem C92_accepted_texts_partial (g : Guard) (xml : String → Option Pf.Elem) (v : Pf.Env T) (n : Nat)
    (filter rest : List Char) (e : Expr) (hf : CafText.parse g n filter = .ok e rest)
    (config : String) (cfg : Cfg (Nat × Pf.Parsed T)) (hc : detect g (PfFilter.parser xml v) config = .config cfg)
    (heap' : Oid → Entry) (hexp : ∀ k x, RuleAt cfg k x ∨ NatAt cfg k x → EntryExpands x (heap' k))
    (hk : NoKeyword e ∨ ∀ k x, RuleAt cfg k x ∨ NatAt cfg k x → ∀ h, HostOf h x → NoAnyObject h) :
    ∃ N, ∀ fuel, N ≤ fuel → ∃ r r',
      select g (PfFilter.parser xml v) (PfFilter.filter fuel) n fuel filter config = some (.ok r) ∧
      filterOn fuel heap' cfg e = .ok r' ∧ r.Perm r' := by
  obtain ⟨L, hsel⟩ := loaded g xml v config cfg hc
  generalize heapOf cfg = heap at L hsel
  obtain ⟨c, ws, h1, h2, h3⟩ := CafText.parse_inv hf
  obtain ⟨e', s1, s2, s3, -⟩ := parsed_shaped c (parsed_shape (P := fun _ => True) h1 (fun _ _ => trivial) h3)
  rw [h3] at s1
  cases s1
  obtain ⟨D, hD⟩ := L.depth
  refine ⟨e.height + 3 + D + 6, fun fuel hfuel => ?_⟩
  rw [hsel n fuel filter e rest hf]
  obtain ⟨f, rfl⟩ : ∃ f, fuel = f + 1 := ⟨fuel - 1, by omega⟩
  have one : ∀ (A : Nat → Entry → Prop) (l : List Oid), (∀ o x, A o x → EntryAt cfg o x) → (∀ o, o ∈ l ↔ ∃ x, A o x) →
      ∃ r r', run f heap l e = .ok r ∧ run f heap' l e = .ok r' ∧ r.Nodup ∧ r'.Nodup ∧ ∀ o, o ∈ r ↔ o ∈ r' := by
    intro A l hA hl
    have hb : ∀ o ∈ l, BothSides (heap o) ∧ EntryDepth D (heap o) := by
      intro o ho
      obtain ⟨x, hx⟩ := (hl o).1 ho
      rw [L.behind o x (hA o x hx)]
      exact ⟨L.both o x (hA o x hx), hD o x (hA o x hx)⟩
    have hb' : ∀ o ∈ l, BothSides (heap' o) ∧ EntryDepth D (heap' o) := by
      intro o ho
      obtain ⟨x, hx⟩ := (hl o).1 ho
      have hE := hA o x hx
      exact bothSides_expands (hexp o x hE) (L.flat o x hE) (L.both o x hE) (hD o x hE)
    obtain ⟨r, i1, i2, i3⟩ := run_total (fun o ho => (hb o ho).1) (fun o ho => (hb o ho).2) s2 s3 (fuel := f) (by omega)
    obtain ⟨r', j1, j2, j3⟩ := run_total (fun o ho => (hb' o ho).1) (fun o ho => (hb' o ho).2) s2 s3 (fuel := f) (by omega)
    refine ⟨r, r', i1, j1, i2, j2, fun o => ?_⟩
    rw [i3, j3]
    refine and_congr_right fun ho => ?_
    obtain ⟨x, hx⟩ := (hl o).1 ho
    have hE := hA o x hx
    rw [L.behind o x hE]
    exact selM_expands s3 (hexp o x hE) (L.flat o x hE) (hk.imp id fun hk => hk o x hE)
  obtain ⟨r1, r1', a1, a2, -, -, a3⟩ := one (RuleAt cfg) _ (fun _ _ => .inl) L.rules
  obtain ⟨r2, r2', b1, b2, -, -, b3⟩ := one (NatAt cfg) _ (fun _ _ => .inr) L.nats
  refine ⟨setUnion (setUnion [] r1) r2, setUnion (setUnion [] r1') r2', ?_, ?_, ?_⟩
  · simp only [filterOn, Caf.configFilter, a1, b1]
  · simp only [filterOn, Caf.configFilter, a2, b2]
  · rw [List.perm_ext_iff_of_nodup (nodup_setUnion (nodup_setUnion (by simp))) (nodup_setUnion (nodup_setUnion (by simp)))]
    intro o
    simp only [mem_setUnion, a3, b3]

/-! ## a sample -/

/-- The objects of the sample of C72 after its group has been expanded. -/
def sampleExpanded : Oid → Entry
  | 6 => .rule { id := some "out", src := ⟨.any, none⟩,
                 dst := ⟨.group "srv" [.host ⟨.v4, 0x0a000001⟩, .net ⟨.v4, 0x0a010000, 16⟩], none⟩ }
  | _ => .rule { src := ⟨.any, none⟩, dst := ⟨.any, none⟩ }

/-- The items of the sample of C72, but for the line of the rule. -/
theorem sample_shape {items : List FwsmText.Item} (hs : FwsmText.SameItems FwsmText.sampleItems items) :
    ∃ r' : AclText.PRule, items = [.version "ASA Version 9.1".toList, .nothing, .hostname "fw",
      .name "web" ⟨.v4, 0x0a000001⟩ none, .netObj "dmz" [.net ⟨.v4, 0x0a010000, 16⟩] none none,
      .netGroup "srv" [.host ⟨.v4, 0x0a000001⟩, .obj "dmz" [.net ⟨.v4, 0x0a010000, 16⟩]] (some "the servers".toList),
      .rule r', .accessGroup "out" "in" "outside"] ∧ r'.id = "out" ∧ r'.src.host = .any ∧ r'.dst.host = FwsmText.sampleGroup := by
  unfold FwsmText.sampleItems at hs
  cases hs with | cons _ j0 _ _ a0 hs =>
  cases hs with | cons _ j1 _ _ a1 hs =>
  cases hs with | cons _ j2 _ _ a2 hs =>
  cases hs with | cons _ j3 _ _ a3 hs =>
  cases hs with | cons _ j4 _ _ a4 hs =>
  cases hs with | cons _ j5 _ _ a5 hs =>
  cases hs with | cons _ j6 _ _ a6 hs =>
  cases hs with | cons _ j7 _ _ a7 hs =>
  cases hs
  cases a0; cases a1; cases a2; cases a3; cases a4; cases a5; cases a7
  cases a6 with
  | other => exact ⟨_, rfl, rfl, rfl, rfl⟩
  | rule _ r' _ e =>
    refine ⟨r', rfl, ?_, ?_, ?_⟩
    · exact congrArg AclText.PRule.id e
    · exact congrArg (fun r => r.src.host) e
    · exact congrArg (fun r => r.dst.host) e

/-- The hypotheses of C92 are met by a configuration text with a group of an address and an object. -/
theorem C92_text_sample {C : Type} (pf : String → Outcome C Unit) :
    (∃ e r, CafText.parse tatsuGuard 6 sampleFilter = .ok e r) ∧
    ∃ items, detect tatsuGuard pf (String.ofList FwsmText.sampleText.dropLast) = .config (.fwsm items) ∧
      (∀ k x, RuleAt (T := T) (.fwsm items) k x ∨ NatAt (T := T) (.fwsm items) k x →
        EntryExpands x (sampleExpanded k) ∧ ∀ h, HostOf h x → NoAnyObject h) ∧
      ∃ x, RuleAt (T := T) (.fwsm items) 6 x ∧ HostOf FwsmText.sampleGroup x := by
  refine ⟨(C93_sample pf).1, ?_⟩
  obtain ⟨items, hs, hp⟩ := FwsmText.C72_sample
  have ht : FwsmText.sampleText = FwsmText.sampleText.dropLast ++ ['\n'] := by decide +kernel
  rw [ht] at hp
  obtain ⟨r', rfl, e1, e2, e3⟩ := sample_shape hs
  refine ⟨_, fwsm_accepts hp, ?_, ?_⟩
  · rintro k x (⟨r, h, rfl⟩ | ⟨i, n, h, h', rfl⟩)
    · have : k = 6 ∧ r = r' := by
        match k, h with
        | 0, h => cases h
        | 1, h => cases h
        | 2, h => cases h
        | 3, h => cases h
        | 4, h => cases h
        | 5, h => cases h
        | 6, h => cases h; exact ⟨rfl, rfl⟩
        | 7, h => cases h
      obtain ⟨rfl, rfl⟩ := this
      constructor
      · refine ⟨by show some "out" = some r.id; rw [e1], ?_, ?_⟩
        · show Expands r.src.host .any
          rw [e2]; exact .same _
        · show Expands r.dst.host _
          rw [e3]
          exact .expanded (.other (by simp) (by simp) (.obj (addrs := [.net ⟨.v4, 0x0a010000, 16⟩]) .nil))
      · rintro y (rfl | rfl)
        · intro nm l hg
          simp only [e2] at hg
          cases hg
        · intro nm l hg
          have hg : GroupLeaf FwsmText.sampleGroup (.obj nm l) := e3 ▸ hg
          cases hg with
          | group hm hg =>
            simp only [List.mem_cons, List.not_mem_nil, or_false] at hm
            rcases hm with rfl | rfl
            · cases hg
            · cases hg; simp
    · match k, h with
      | 0, h => cases h; cases h'
      | 1, h => cases h; cases h'
      | 2, h => cases h; cases h'
      | 3, h => cases h; cases h'
      | 4, h => cases h; cases h'
      | 5, h => cases h; cases h'
      | 6, h => cases h; cases h'
      | 7, h => cases h; cases h'
  · exact ⟨_, ⟨r', rfl, rfl⟩, Or.inr e3.symm⟩

end Acltk.Accepted
