import Verif.Lemmas.SectionWords
/-!
# The words in the NAT entries of whatever text is accepted
-/
namespace Acltk.FwsmText
open Acltk Acltk.Lookup Acltk.Peg Acltk.NatCmd

variable {α β : Type} {g : Guard} {s : St} {e : Env}

/-- A word is the name of a service or a number, a condition is one of service objects. -/
def PortRefOk : Option PortRef → Prop
  | none => True
  | some (.word w) => Cells.PortText w
  | some (.cond v) => PortOk (some v)

/-- The services of both sides are missing, or both are there. -/
def SvcPairOk (s m : Option NatCmd.Svc) : Prop :=
  s = none ∨ ∃ a b, s = some a ∧ m = some b ∧ PortRefOk a.src ∧ PortRefOk a.dst ∧ PortRefOk b.src ∧ PortRefOk b.dst

structure NatWords (n : Nat') : Prop where
  type : n.mapped.type ≠ none
  fallback : ∀ g, n.mapped.fallback = some g → g.interface ≠ some none
  service : SvcPairOk n.real.service n.mapped.service

/-- The services a twice NAT command can name. -/
def DefsOk (s : St) : Prop := ∀ p ∈ s.svcDefs, SvcOk p.2.2

theorem svcObject_ok (hs : DefsOk s) (o : Nat) : PortRefOk (svcObject s o).src ∧ PortRefOk (svcObject s o).dst := by
  unfold svcObject
  split
  · rename_i n v h
    have hv := hs _ (List.mem_of_find?_eq_some h)
    constructor
    · have := hv.src
      simp only
      cases h1 : v.src with
      | none => trivial
      | some p => rw [h1] at this; exact this
    · have := hv.dst
      simp only
      cases h1 : v.dst with
      | none => trivial
      | some p => rw [h1] at this; exact this
  · exact ⟨trivial, trivial⟩

theorem services_ok {ty : String} {p : Option (NatCmd.Svc × NatCmd.Svc)} {x : Option NatCmd.Svc × Option NatCmd.Svc} (h : services ty p = .ok x)
    (hp : ∀ q, p = some q → (PortRefOk q.1.src ∧ PortRefOk q.1.dst) ∧ PortRefOk q.2.src ∧ PortRefOk q.2.dst) : SvcPairOk x.1 x.2 := by
  match p with
  | none => cases h; exact .inl rfl
  | some (a, b) =>
    obtain ⟨⟨h1, h2⟩, h3, h4⟩ := hp _ rfl
    unfold services at h
    simp only at h
    split at h
    · split at h
      · cases h; exact .inr ⟨a, b, rfl, rfl, h1, h2, h3, h4⟩
      · split at h
        · cases h; exact .inr ⟨b, a, rfl, rfl, h3, h4, h1, h2⟩
        · cases h
    · split at h
      · cases h; exact .inr ⟨a, b, rfl, rfl, h1, h2, h3, h4⟩
      · cases h

theorem twice_words {c : NatCmd.Cmd} {n : NatCmd.Nat'} (h : NatCmd.twiceNat c = .ok (some n))
    (hp : ∀ q, c.service = some q → (PortRefOk q.1.src ∧ PortRefOk q.1.dst) ∧ PortRefOk q.2.src ∧ PortRefOk q.2.dst) : NatWords n := by
  unfold NatCmd.twiceNat at h
  split at h
  · cases h
  · rename_i ri mi
    cases hsv : services c.src.type c.service with
    | error e => rw [hsv] at h; cases h
    | ok x =>
      obtain ⟨rs, ms⟩ := x
      rw [hsv] at h
      cases h
      refine ⟨by simp, ?_, services_ok hsv hp⟩
      intro f hf
      simp only [Option.map_eq_some_iff] at hf
      obtain ⟨f', _, rfl⟩ := hf
      simp

theorem object_words {b : NatCmd.Block} {n : NatCmd.Nat'} (h : (NatCmd.objectType b).2 = some n)
    (hb : ∀ a, b.nat = some a → ∀ p r m, a.service = some (.service p r m) → Cells.PortText r ∧ Cells.PortText m) : NatWords n := by
  unfold NatCmd.objectType at h
  cases ha : b.nat with
  | none => simp [ha] at h
  | some a =>
    simp only [ha, Option.map_some, Option.some.injEq] at h
    subst h
    have hw := hb a ha
    refine ⟨by simp [networkObjectNat], ?_, ?_⟩
    · intro f hf
      simp only [networkObjectNat, Option.map_eq_some_iff] at hf
      obtain ⟨f', _, rfl⟩ := hf
      split
      · simp
      · assumption
    · cases hv : a.service with
      | none => exact .inl (by simp [networkObjectNat, hv])
      | some v =>
        cases v with
        | dns => exact .inl (by simp [networkObjectNat, hv, ObjService.svc])
        | service p r m =>
          refine .inr ⟨{ protocol := p, src := none, dst := some (.word r) }, { protocol := p, src := none, dst := some (.word r) }, by simp [networkObjectNat, hv, ObjService.svc], by simp [networkObjectNat, hv, ObjService.svc], ?_, ?_, ?_, ?_⟩
          · trivial
          · exact (hw p r m hv).1
          · trivial
          · exact (hw p r m hv).1

def ServiceWords (o : Option ObjService) : Prop := ∀ p r m, o = some (.service p r m) → Cells.PortText r ∧ Cells.PortText m

theorem val_objectNatService : Val (objectNatService g) (fun v => ServiceWords (some v)) := by
  unfold objectNatService
  refine Val.alt ?_ ?_
  · refine Val.skip fun _ => Val.skip fun _ => Val.skip fun _ => Val.skip fun _ => Val.bind val_port fun a ha => Val.skip fun _ => Val.bind val_port fun b hb => Val.pure ?_
    intro p r m h; cases h; exact ⟨ha, hb⟩
  · exact Val.skip fun _ => Val.pure (by intro p r m h; cases h)

theorem val_objectNat' : Val (objectNat s) (fun x => ServiceWords x.service) := by
  unfold objectNat
  refine Val.alt ?_ ?_
  · exact Val.skip fun _ => Val.skip fun _ => Val.pure (by intro p r m h; cases h)
  · refine Val.skip fun _ => Val.bind (V := fun o : Option ObjService => ServiceWords o) ?_ fun v hv => Val.skip fun _ => Val.pure hv
    exact (Val.opt (V := fun v => ServiceWords (some v)) (Val.skip fun _ => val_objectNatService)).mono fun o h => by
      cases o with
      | none => intro p r m h; cases h
      | some v => exact h v rfl

def NatItem : Item → Prop
  | .netObj _ _ nat _ => ∀ n, nat = some n → NatWords n
  | .nat n => NatWords n
  | _ => True

def NatOut (x : Item × St) : Prop := NatItem x.1 ∧ DefsOk x.2

theorem nat_keep {p : P Item} (hs : DefsOk s) (hp : Val p NatItem) : Val (keep s p) NatOut :=
  Val.bind hp fun _ hi => Val.pure ⟨hi, hs⟩

theorem val_natCmd (hs : DefsOk s) : Val (nat s) NatItem := by
  unfold nat
  refine Val.alt ?_ ?_
  · refine Val.skip fun _ => Val.skip fun _ => Val.skip fun _ => Val.skip fun _ => Val.skip fun _ => Val.skip fun src =>
      Val.skip fun dst =>
      Val.bind (V := fun o : Option (NatCmd.Svc × NatCmd.Svc) => ∀ q, o = some q → (PortRefOk q.1.src ∧ PortRefOk q.1.dst) ∧ PortRefOk q.2.src ∧ PortRefOk q.2.dst)
        (Val.opt (V := fun q : NatCmd.Svc × NatCmd.Svc => (PortRefOk q.1.src ∧ PortRefOk q.1.dst) ∧ PortRefOk q.2.src ∧ PortRefOk q.2.dst)
          (Val.skip fun _ => Val.skip fun _ => Val.skip fun _ => Val.skip fun a => Val.skip fun _ => Val.skip fun b => Val.pure ⟨svcObject_ok hs a, svcObject_ok hs b⟩)) fun sv hsv =>
      Val.skip fun _ => Val.skip fun _ => Val.skip fun _ =>
      Val.bind (Val.act fun n hn => hn) fun n hn => Val.pure ?_
    cases n with
    | none => trivial
    | some n => exact twice_words hn hsv
  · exact Val.skip fun _ => Val.skip fun _ => Val.skip fun _ => Val.skip fun _ => Val.skip fun _ => Val.skip fun _ => Val.pure trivial

theorem nat_command (hs : DefsOk s) : Val (command s) NatOut := by
  unfold command
  dsimp only
  refine Val.alts_cons (nat_keep hs ?_) <| Val.alts_cons (nat_keep hs ?_) <| Val.alts_cons (nat_keep hs ?_) <|
    Val.alts_cons ?_ <| Val.alts_cons ?_ <| Val.alts_cons ?_ <|
    Val.alts_cons ?_ <| Val.alts_cons ?_ <| Val.alts_cons (nat_keep hs ?_) <|
    Val.alts_cons (nat_keep hs ?_) <| Val.alts_cons (nat_keep hs ?_) <| Val.alts_cons (nat_keep hs (val_natCmd hs)) <|
    Val.alts_cons (nat_keep hs ?_) <| Val.alts_cons (nat_keep hs ?_) Val.alts_nil
  · exact Val.skip fun _ => Val.skip fun _ => Val.pure trivial
  · exact Val.skip fun _ => Val.skip fun _ => Val.skip fun _ => Val.skip fun _ => Val.pure trivial
  · exact Val.skip fun _ => Val.skip fun _ => Val.skip fun _ => Val.pure trivial
  · unfold interface
    exact Val.skip fun _ => Val.skip fun _ => Val.skip fun _ => Val.skip fun _ => Val.skip fun _ => Val.skip fun _ => Val.pure ⟨trivial, hs⟩
  · unfold name
    exact Val.skip fun _ => Val.skip fun _ => Val.skip fun _ => Val.skip fun _ => Val.skip fun _ =>
      Val.skip fun _ => Val.skip fun _ => Val.pure ⟨trivial, hs⟩
  · unfold timeRange
    exact Val.skip fun _ => Val.skip fun _ => Val.skip fun _ => Val.skip fun _ => Val.skip fun _ => Val.skip fun _ =>
      Val.pure ⟨trivial, hs⟩
  · unfold object
    refine Val.skip fun _ => Val.skip fun _ => Val.alt ?_ ?_
    · unfold objectNetwork
      dsimp only
      refine Val.skip fun _ => Val.skip fun _ => Val.skip fun n =>
        Val.bind (V := fun o : Option (ObjArgs × Option NatCmd.ObjNat) => ∀ a, o = some a → ∀ x, a.2 = some x → ServiceWords x.service)
          (Val.opt ?_) fun args hargs =>
        Val.bind (V := fun o : Option NatCmd.ObjNat => ∀ a, o = some a → ServiceWords a.service) (Val.opt (Val.skip fun _ => val_objectNat'))
          fun nt hnt => Val.skip fun d => Val.skip fun l => Val.pure ?_
      · exact Val.skip fun _ => Val.skip fun _ => Val.alt (Val.skip fun _ => Val.pure (by intro x h; cases h))
          (Val.bind val_objectNat' fun x hx => Val.pure (by intro y h; cases h; exact hx))
      · refine ⟨?_, hs⟩
        intro x hx
        refine object_words hx ?_
        intro a ha
        simp only at ha
        split at ha
        · cases ha
          exact hargs _ rfl _ rfl
        · exact hnt a ha
    · unfold objectService
      dsimp only
      refine Val.skip fun _ => Val.skip fun _ => Val.skip fun _ =>
        Val.bind (Val.opt (V := SvcOk) (Val.skip fun _ => Val.skip fun _ => val_serviceArgs)) fun a ha => Val.skip fun _ =>
        Val.bind (V := SvcOk) (Val.act fun v hv => ?_) fun v hv => Val.pure ⟨trivial, ?_⟩
      · cases a with
        | none => cases hv
        | some x => cases hv; exact ha _ rfl
      · intro p hp
        rcases List.mem_append.1 hp with hp | hp
        · exact hs p hp
        · rw [List.mem_singleton.1 hp]
          exact hv
  · unfold objectGroup objectGroupType
    dsimp only
    refine Val.skip fun _ => Val.skip fun _ => Val.alts_cons ?_ <| Val.alts_cons ?_ <| Val.alts_cons ?_ <| Val.alts_cons ?_ <|
      Val.alts_cons ?_ Val.alts_nil
    · exact Val.skip fun _ => Val.skip fun ⟨n, d, l⟩ => Val.pure ⟨trivial, hs⟩
    · exact Val.skip fun _ => Val.skip fun _ => Val.skip fun _ => Val.skip fun _ => Val.skip fun _ =>
        Val.skip fun _ => Val.skip fun _ => Val.skip fun _ => Val.skip fun _ => Val.skip fun _ => Val.pure ⟨trivial, hs⟩
    · exact Val.skip fun _ => Val.skip fun ⟨n, d, l⟩ => Val.pure ⟨trivial, hs⟩
    · exact Val.skip fun _ => Val.skip fun ⟨n, d, l⟩ => Val.pure ⟨trivial, hs⟩
    · exact Val.skip fun _ => Val.skip fun ⟨n, d, l⟩ => Val.pure ⟨trivial, hs⟩
  · refine Val.skip fun r => Val.pure ?_
    cases r <;> trivial
  · exact Val.skip fun _ => Val.pure trivial
  · unfold accessGroup
    refine Val.alt ?_ ?_
    · exact Val.skip fun _ => Val.skip fun _ => Val.skip fun _ => Val.skip fun _ => Val.skip fun _ => Val.skip fun _ => Val.skip fun _ => Val.skip fun _ => Val.skip fun _ => Val.skip fun _ => Val.skip fun _ =>
        Val.pure trivial
    · exact Val.skip fun _ => Val.skip fun _ => Val.skip fun _ => Val.skip fun _ => Val.skip fun _ => Val.skip fun _ => Val.skip fun _ =>
        Val.pure trivial
  · unfold ignored
    refine Val.alts ?_
    intro p hp
    obtain ⟨kt, -, rfl⟩ := List.mem_map.1 hp
    exact Val.skip fun _ => Val.skip fun _ => Val.pure trivial
  · exact Val.skip fun _ => Val.pure trivial

theorem parseFile_nats {t r : Text} {items : List Item} (h : parseFile g t = .ok items r) : ∀ i ∈ items, NatItem i := by
  unfold parseFile at h
  split at h
  · rename_i l s' hc
    split at h
    · cases h
    · cases h
      exact (commands_inv (S := DefsOk) (I := NatItem) (fun s hs => nat_command hs) _ _ _ _ _ _ rfl (by intro p hp; simp at hp) hc).1
  · cases h
  · cases h
  · cases h

end Acltk.FwsmText
