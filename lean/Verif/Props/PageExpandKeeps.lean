import Verif.Props.PageExpand
/-!
# C114: expansion keeps what the theorems about pages ask for
-/
namespace Acltk.Page
open Acltk Acltk.Resolve

variable {heap heap' : Oid → Obj} {svc : Oid → Oid} {tb : Tables}

theorem Expanded.group (E : Expanded heap svc tb heap') {o : Oid} {c : GroupClass} {n : String} {l : List El} (h : heap o = .group c n l) :
    ∃ l', heap' o = .group c n l' ∧ (l' = l ∨ Flat heap svc c l l') := by
  by_cases hk : ∃ k, dGet (tb.table (.group c)) k = some o
  · obtain ⟨k, hk⟩ := hk
    obtain ⟨l', h1, h2⟩ := E.listed c k o n l hk h
    exact ⟨l', h2, .inr h1⟩
  · exact ⟨l, (E.unlisted c o n l (fun k hk' => hk ⟨k, hk'⟩) h).trans h, .inl rfl⟩

theorem Expanded.group_inv (E : Expanded heap svc tb heap') {o : Oid} {c : GroupClass} {n : String} {l' : List El} (h : heap' o = .group c n l') :
    ∃ l, heap o = .group c n l ∧ (l' = l ∨ Flat heap svc c l l') := by
  by_cases hg : ∃ c n l, heap o = .group c n l
  · obtain ⟨c0, n0, l, e⟩ := hg
    obtain ⟨l2, h1, h2⟩ := E.group e
    rw [h] at h1
    cases h1
    exact ⟨l, e, h2⟩
  · rw [E.others o fun c n l e => hg ⟨c, n, l, e⟩] at h
    exact absurd ⟨_, _, _, h⟩ hg

/-- Objects other than groups are the same before and after. -/
theorem Expanded.same (E : Expanded heap svc tb heap') (o : Oid) (x : Obj) (hx : ∀ c n l, x ≠ .group c n l) : heap' o = x ↔ heap o = x := by
  by_cases hg : ∃ c n l, heap o = .group c n l
  · obtain ⟨c, n, l, e⟩ := hg
    obtain ⟨l', h1, -⟩ := E.group e
    rw [e, h1]
    exact ⟨fun h => absurd h.symm (hx _ _ _), fun h => absurd h.symm (hx _ _ _)⟩
  · rw [E.others o fun c n l e => hg ⟨c, n, l, e⟩]

theorem Expanded.nameOf (E : Expanded heap svc tb heap') (o : Oid) : nameOf heap' o = nameOf heap o := by
  by_cases hg : ∃ c n l, heap o = .group c n l
  · obtain ⟨c, n, l, e⟩ := hg
    obtain ⟨l', h1, -⟩ := E.group e
    simp [Page.nameOf, e, h1]
  · simp only [Page.nameOf, E.others o fun c n l e => hg ⟨c, n, l, e⟩]

theorem Expanded.protocolName (E : Expanded heap svc tb heap') (x : El) : protocolName heap' x = protocolName heap x := by
  cases x with
  | obj o =>
    by_cases hg : ∃ c n l, heap o = .group c n l
    · obtain ⟨c, n, l, e⟩ := hg
      obtain ⟨l', h1, -⟩ := E.group e
      simp [Page.protocolName, e, h1]
    · simp only [Page.protocolName, E.others o fun c n l e => hg ⟨c, n, l, e⟩]
  | _ => rfl

theorem Expanded.isTimeRange (E : Expanded heap svc tb heap') (x : El) : isTimeRange heap' x = isTimeRange heap x := by
  cases x with
  | obj o =>
    by_cases hg : ∃ c n l, heap o = .group c n l
    · obtain ⟨c, n, l, e⟩ := hg
      obtain ⟨l', h1, -⟩ := E.group e
      simp [Page.isTimeRange, e, h1]
    · simp only [Page.isTimeRange, E.others o fun c n l e => hg ⟨c, n, l, e⟩]
  | _ => rfl

/-- `resolve` sees the same of everything but groups. -/
theorem Expanded.info (E : Expanded heap svc tb heap') (o : Oid) (hg : ∀ c n l, heap o ≠ .group c n l) : info heap' o = info heap o := by
  have h1 : Page.protocolName heap' = Page.protocolName heap := funext E.protocolName
  have h2 : Page.isTimeRange heap' = Page.isTimeRange heap := funext E.isTimeRange
  simp only [Page.info, E.others o hg, h1, h2]

/-- What is among the new members is something below the old ones, or a plain object. -/
theorem flat_refers (hP : PlainAddresses heap) (hsvc : NewServices heap svc) {c : GroupClass} {l l' : List El} (F : Flat heap svc c l l')
    (hl : ∀ q, .obj q ∈ l → Refers heap tb q) : ∀ q, .obj q ∈ l' → Refers heap tb q ∨ heap q = .address none ∨ heap q = .other := by
  induction F with
  | nil => intro q hq; cases hq
  | group e _ _ ih1 ih2 =>
    intro q hq
    rcases List.mem_append.1 hq with hq | hq
    · exact ih1 (fun q hq => .member (hl _ (List.mem_cons_self ..)) e hq) q hq
    · exact ih2 (fun q hq => hl q (List.mem_cons_of_mem _ hq)) q hq
  | addresses _ e _ ih =>
    intro q hq
    rcases List.mem_append.1 hq with hq | hq
    · obtain ⟨q', e1, h⟩ := hP _ _ _ e _ hq
      cases e1
      exact .inr h
    · exact ih (fun q hq => hl q (List.mem_cons_of_mem _ hq)) q hq
  | service _ e _ ih =>
    intro q hq
    rcases List.mem_cons.1 hq with hq | hq
    · cases hq
      exact .inr (.inr (hsvc _ _ e))
    · exact ih (fun q hq => hl q (List.mem_cons_of_mem _ hq)) q hq
  | item _ _ _ _ ih =>
    intro q hq
    rcases List.mem_cons.1 hq with hq | hq
    · exact .inl (hl q (hq ▸ List.mem_cons_self ..))
    · exact ih (fun q hq => hl q (List.mem_cons_of_mem _ hq)) q hq

theorem flat_obj (W : WellFormed heap tb) (hP : PlainAddresses heap) {c : GroupClass} {l l' : List El} (F : Flat heap svc c l l')
    (hl : ∀ x ∈ l, ∃ q, x = .obj q) : ∀ x ∈ l', ∃ q, x = .obj q := by
  induction F with
  | nil => intro x hx; cases hx
  | group e _ _ ih1 ih2 =>
    intro x hx
    rcases List.mem_append.1 hx with hx | hx
    · exact ih1 (W.members _ _ _ _ e) x hx
    · exact ih2 (fun y hy => hl y (List.mem_cons_of_mem _ hy)) x hx
  | addresses _ e _ ih =>
    intro x hx
    rcases List.mem_append.1 hx with hx | hx
    · obtain ⟨q, e1, -⟩ := hP _ _ _ e _ hx
      exact ⟨q, e1⟩
    · exact ih (fun y hy => hl y (List.mem_cons_of_mem _ hy)) x hx
  | service _ e _ ih =>
    intro x hx
    rcases List.mem_cons.1 hx with hx | hx
    · exact ⟨_, hx⟩
    · exact ih (fun y hy => hl y (List.mem_cons_of_mem _ hy)) x hx
  | item _ _ _ _ ih =>
    intro x hx
    rcases List.mem_cons.1 hx with hx | hx
    · exact hl x (hx ▸ List.mem_cons_self ..)
    · exact ih (fun y hy => hl y (List.mem_cons_of_mem _ hy)) x hx

theorem field_same {i i' : Oid → Info} {o : Oid} (h : i' o = i o) {x : El} (hf : Field i' o x) : Field i o x := by
  cases hf with
  | protocol e => rw [h] at e; exact .protocol e
  | srcHost e => rw [h] at e; exact .srcHost e
  | dstHost e => rw [h] at e; exact .dstHost e
  | srcPort e => rw [h] at e; exact .srcPort e
  | dstPort e => rw [h] at e; exact .dstPort e
  | id e e2 => rw [h] at e; exact .id e e2
  | noId e e2 => rw [h] at e; exact .noId e e2
  | icmp e e2 e3 => rw [h] at e; exact .icmp e e2 e3
  | timeRange e e2 => rw [h] at e; exact .timeRange e e2
  | natSrc e e2 e3 => rw [h] at e; exact .natSrc e e2 e3
  | natDst e e2 e3 => rw [h] at e; exact .natDst e e2 e3
  | natIface e e2 => rw [h] at e; exact .natIface e e2
  | natService e e2 => rw [h] at e; exact .natService e e2

theorem refers_old (W : WellFormed heap tb) (hP : PlainAddresses heap) (hsvc : NewServices heap svc) (E : Expanded heap svc tb heap') {q : Oid}
    (h : Refers heap' tb q) : Refers heap tb q ∨ heap q = .address none ∨ heap q = .other := by
  induction h with
  | @field a o ha hf =>
    refine .inl (.field ha ?_)
    have hg : ∀ c n l, heap a ≠ .group c n l := by
      intro c n l e
      rcases ha with ha | ha
      · obtain ⟨_, _, _, _, _, _, _, _, e'⟩ := W.rules a ha
        rw [e] at e'; cases e'
      · obtain ⟨_, _, e'⟩ := W.nat a ha
        rw [e] at e'; cases e'
    exact field_same (E.info a hg) hf
  | @member a o c n l _ e hm ih =>
    obtain ⟨l0, e0, h⟩ := E.group_inv e
    have ha : Refers heap tb a := by
      rcases ih with h | h | h
      · exact h
      · rw [e0] at h; cases h
      · rw [e0] at h; cases h
    rcases h with rfl | h
    · exact .inl (.member ha e0 hm)
    · exact flat_refers hP hsvc h (fun q hq => .member ha e0 hq) _ hm
  | @listed s m a o c n l hd e hm =>
    obtain ⟨l0, e0, h⟩ := E.group_inv e
    rcases h with rfl | h
    · exact .inl (.listed hd e0 hm)
    · exact flat_refers hP hsvc h (fun q hq => .listed hd e0 hq) _ hm

/-- **C114, the tables belong to the expanded objects.** -/
theorem C114_wellFormed (W : WellFormed heap tb) (hP : PlainAddresses heap) (hsvc : NewServices heap svc) (E : Expanded heap svc tb heap') : WellFormed heap' tb := by
  have old := fun q (h : Refers heap' tb q) => refers_old W hP hsvc E h
  refine ⟨?_, ?_, W.nodup, ?_, ?_, ?_, W.noNames, ?_, ?_, ?_, ?_, ?_⟩
  · intro o ho
    obtain ⟨id, p, sh, sp, dh, dp, ic, os, e⟩ := W.rules o ho
    exact ⟨id, p, sh, sp, dh, dp, ic, os, (E.same o _ (by simp)).2 e⟩
  · intro o ho
    obtain ⟨r, m, e⟩ := W.nat o ho
    exact ⟨r, m, (E.same o _ (by simp)).2 e⟩
  · intro s n o h1 h2
    rw [E.nameOf]
    exact W.table s n o h1 h2
  · intro n o h
    obtain ⟨m, e⟩ := W.ifaces n o h
    exact ⟨m, (E.same o _ (by simp)).2 e⟩
  · intro o c n l h
    obtain ⟨l0, e0, h⟩ := E.group_inv h
    rcases h with rfl | h
    · exact W.members o c n _ e0
    · exact flat_obj W hP h (W.members o c n _ e0)
  · intro o ho
    obtain ⟨h, e⟩ := W.names o ho
    exact ⟨h, (E.same o _ (by simp)).2 e⟩
  · intro o s n h1 h2
    rw [E.nameOf] at h2
    rcases old o h1 with h | h | h
    · exact W.listed o s n h h2
    · simp [nameOf, h] at h2
    · simp [nameOf, h] at h2
  · intro o t h1 h2
    have h2 := (E.same o _ (by simp)).1 h2
    rcases old o h1 with h | h | h
    · exact W.target o t h h2
    · rw [h] at h2; cases h2
    · rw [h] at h2; cases h2
  · intro o h1
    have key : (heap o = .address none ∨ heap o = .other) → o ∉ tb.rules ∧ o ∉ tb.nat := by
      intro h
      constructor <;> intro hm
      · obtain ⟨_, _, _, _, _, _, _, _, e⟩ := W.rules o hm
        rcases h with h | h <;> rw [h] at e <;> cases e
      · obtain ⟨_, _, e⟩ := W.nat o hm
        rcases h with h | h <;> rw [h] at e <;> cases e
    rcases old o h1 with h | h
    · exact W.fresh o h
    · exact key h
  · intro o n l h x hx
    obtain ⟨q, rfl, h⟩ := hP o n l ((E.same o _ (by simp)).1 h) x hx
    rcases h with h | h <;> simp [hostLinks, (E.same q _ (by simp)).2 h]

/-- No listed group has a group of its class as a member, no network group a network object, no service group a service object. -/
theorem flat_leaf (hP : PlainAddresses heap) (hsvc : NewServices heap svc) {c : GroupClass} {l l' : List El} (F : Flat heap svc c l l') :
    ∀ q, .obj q ∈ l' → (∀ n m, heap q ≠ .group c n m) ∧ (c = .network → ∀ n m, heap q ≠ .netObject n m) ∧ (c = .service → ∀ n, heap q ≠ .svcObject n) := by
  have plain : ∀ q, heap q = .address none ∨ heap q = .other →
      (∀ n m, heap q ≠ .group c n m) ∧ (c = .network → ∀ n m, heap q ≠ .netObject n m) ∧ (c = .service → ∀ n, heap q ≠ .svcObject n) := by
    intro q h
    rcases h with h | h <;> rw [h] <;> simp
  induction F with
  | nil => intro q hq; cases hq
  | group _ _ _ ih1 ih2 => intro q hq; exact (List.mem_append.1 hq).elim (ih1 q) (ih2 q)
  | addresses _ e _ ih =>
    intro q hq
    rcases List.mem_append.1 hq with hq | hq
    · obtain ⟨q', e1, h⟩ := hP _ _ _ e _ hq
      cases e1
      exact plain q h
    · exact ih q hq
  | service _ e _ ih =>
    intro q hq
    rcases List.mem_cons.1 hq with hq | hq
    · cases hq
      exact plain _ (.inr (hsvc _ _ e))
    · exact ih q hq
  | item h1 h2 h3 _ ih =>
    intro q hq
    rcases List.mem_cons.1 hq with hq | hq
    · exact ⟨fun n m => h1 q n m hq.symm, fun hc n m => h2 hc q n m hq.symm, fun hc n => h3 hc q n hq.symm⟩
    · exact ih q hq

/-- **C114, what is left.** After the expansion no listed group has a group of its own class, no network group a network object and no service group a service object among its members. -/
theorem C114_leaves (hP : PlainAddresses heap) (hsvc : NewServices heap svc) (E : Expanded heap svc tb heap') {c : GroupClass} {k n : String} {o : Oid} {l : List El}
    (hk : dGet (tb.table (.group c)) k = some o) (h : heap' o = .group c n l) :
    ∀ q, .obj q ∈ l → (∀ n m, heap' q ≠ .group c n m) ∧ (c = .network → ∀ n m, heap' q ≠ .netObject n m) ∧ (c = .service → ∀ n, heap' q ≠ .svcObject n) := by
  intro q hq
  obtain ⟨l0, e0, -⟩ := E.group_inv h
  obtain ⟨l', F, e⟩ := E.listed c k o n l0 hk e0
  rw [h] at e
  cases e
  obtain ⟨h1, h2, h3⟩ := flat_leaf hP hsvc F q hq
  refine ⟨fun n m e => ?_, fun hc n m e => h2 hc n m ((E.same q _ (by simp)).1 e), fun hc n e => h3 hc n ((E.same q _ (by simp)).1 e)⟩
  obtain ⟨l1, e1, -⟩ := E.group_inv e
  exact h1 _ _ e1

end Acltk.Page

namespace Acltk.Accepted
open Acltk Acltk.Lookup Acltk.Detect Acltk.DetectText Acltk.Resolve Acltk.Page

variable {T : Type} {heap heap' : Oid → Obj} {svc : Oid → Oid} {tb : Page.Tables}

/-- What `resolve` asks for, of the expanded objects. -/
theorem C114_holds {cfg : Cfg (Nat × Pf.Parsed T)} {U : List El} (hU : HoldsCfg (info heap) cfg U) (hfin : ∃ all : List Oid, ∀ o, heap o ≠ .other → o ∈ all)
    (E : Expanded heap svc tb heap') : ∃ U', HoldsCfg (info heap') cfg U' := by
  obtain ⟨all, hall⟩ := hfin
  have hall' : ∀ o, heap' o ≠ .other → o ∈ all := fun o h => hall o fun e => h ((E.same o _ (by simp)).2 e)
  have hmem : ∀ o y, y ∈ contents heap' o → y ∈ all.flatMap fun o => .obj o :: contents heap' o := by
    intro o y hy
    have : o ∈ all := by
      refine hall' o fun e => ?_
      simp [contents, e] at hy
    exact List.mem_flatMap.2 ⟨o, this, List.mem_cons_of_mem _ hy⟩
  have hr : ∀ k r, info heap k = .rule r → info heap' k = .rule r := by
    intro k r h
    refine (E.info k fun c n l e => ?_).trans h
    simp [info, e] at h
  have hn : ∀ k a b, info heap k = .nat a b → info heap' k = .nat a b := by
    intro k a b h
    refine (E.info k fun c n l e => ?_).trans h
    simp [info, e] at h
  have hrule : ∀ k x, RuleAt cfg k x → ∃ r n, info heap' k = .rule r ∧ r.id = listOf x ∧ r.protoName = some n := by
    intro k x h
    obtain ⟨r, n, h1, h2⟩ := hU.rule k x h
    exact ⟨r, n, hr k r h1, h2⟩
  have hnat : ∀ k x, NatAt cfg k x → ∃ a b, info heap' k = .nat (some a) (some b) := by
    intro k x h
    obtain ⟨a, b, h⟩ := hU.nat k x h
    exact ⟨a, b, hn k _ _ h⟩
  refine ⟨all.flatMap fun o => .obj o :: contents heap' o, hrule, hnat, ?_, fun k x y _ hy => hmem k y (field_contents hy), fun o y _ hy => hmem o y (pulls_contents hy)⟩
  intro k x hx
  have : k ∈ all := by
    refine hall' k fun e => ?_
    rcases hx with hx | hx
    · obtain ⟨r, n, h1, -⟩ := hrule k x hx
      simp [info, e] at h1
    · obtain ⟨a, b, h1⟩ := hnat k x hx
      simp [info, e] at h1
  exact List.mem_flatMap.2 ⟨k, this, List.mem_cons_self ..⟩

end Acltk.Accepted
