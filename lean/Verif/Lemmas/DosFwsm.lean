import Verif.Lemmas.DosAcl
/-!
# FWSM/ASA configurations with DOS line ends
-/
namespace Acltk.Dos
open Acltk Acltk.Lookup Acltk.Peg Acltk.AclText
open Acltk.FwsmText (Item St)

variable {ks : List String}

theorem noEol_digit : NoEol (.cls Char.isDigit) := ⟨by decide, by decide⟩

theorem leaf_Acltk_FwsmText_twoDigits : Sim ks .even Eq FwsmText.twoDigits FwsmText.twoDigits := by
  unfold FwsmText.twoDigits
  refine Sim.bindEE (Sim.patE ?_) (fun _ => Sim.pureE)
  simp [NoEol, Re.optional]

theorem leaf_Acltk_FwsmText_fourDigits : Sim ks .even Eq FwsmText.fourDigits FwsmText.fourDigits := by
  unfold FwsmText.fourDigits
  refine Sim.bindEE (Sim.patE ?_) (fun _ => Sim.pureE)
  simp [NoEol]

theorem leaf_Acltk_FwsmText_clock : Sim ks .strict Eq FwsmText.clock FwsmText.clock := by sim
theorem leaf_Acltk_FwsmText_time : Sim ks .strict Eq FwsmText.time FwsmText.time := by sim

section
variable {g : Guard} (hg : NextChar g)
include hg

theorem leaf_Acltk_FwsmText_timedate : Sim ks .strict Eq (FwsmText.timedate g) (FwsmText.timedate g) := by sim
theorem leaf_Acltk_FwsmText_timeRangeObject : Sim ks .strict Eq (FwsmText.timeRangeObject g) (FwsmText.timeRangeObject g) := by sim
theorem leaf_Acltk_FwsmText_fallback : Sim ks .strict Eq (FwsmText.fallback g) (FwsmText.fallback g) := by sim
theorem leaf_Acltk_FwsmText_optFallback : Sim ks .any Eq (FwsmText.optFallback g) (FwsmText.optFallback g) := by sim
theorem leaf_Acltk_FwsmText_objectNatService : Sim ks .strict Eq (FwsmText.objectNatService g) (FwsmText.objectNatService g) := by sim
theorem leaf_Acltk_FwsmText_objectNatTail : Sim ks .strict Eq (FwsmText.objectNatTail g) (FwsmText.objectNatTail g) := by sim
theorem leaf_Acltk_FwsmText_networkArgs : Sim ks .strict Eq (FwsmText.networkArgs g) (FwsmText.networkArgs g) := by sim
theorem leaf_Acltk_FwsmText_serviceOp : Sim ks .strict Eq (FwsmText.serviceOp g) (FwsmText.serviceOp g) := by sim
theorem leaf_Acltk_FwsmText_serviceSide {k : String} (hk : Plain k.toList ∧ k.toList ≠ []) :
    Sim ks .even Eq (FwsmText.serviceSide g k) (FwsmText.serviceSide g k) := by sim
theorem leaf_Acltk_FwsmText_icmpPart : Sim ks .any Eq (FwsmText.icmpPart g) (FwsmText.icmpPart g) := by sim
theorem leaf_Acltk_FwsmText_svcIcmp : Sim ks .strict Eq (FwsmText.svcIcmp g) (FwsmText.svcIcmp g) := by sim
theorem leaf_Acltk_FwsmText_svcPorts : Sim ks .strict Eq (FwsmText.svcPorts g) (FwsmText.svcPorts g) := by sim
end

theorem leaf_Acltk_FwsmText_protocolNumber : Sim ks .strict Eq FwsmText.protocolNumber FwsmText.protocolNumber := by sim
section
variable {g : Guard} (hg : NextChar g)
include hg
theorem leaf_Acltk_FwsmText_serviceArgs : Sim ks .strict Eq (FwsmText.serviceArgs g) (FwsmText.serviceArgs g) := by sim
theorem leaf_Acltk_FwsmText_accessGroup : Sim ks .strict Eq (FwsmText.accessGroup g) (FwsmText.accessGroup g) := by sim
end

section
variable {e : Env} (he : EnvOk e)
include he

theorem leaf_Acltk_FwsmText_networkMember : Sim ks .even Eq (FwsmText.networkMember e) (FwsmText.networkMember e) := by sim
theorem leaf_Acltk_FwsmText_portMember : Sim ks .even Eq (FwsmText.portMember e) (FwsmText.portMember e) := by sim
theorem leaf_Acltk_FwsmText_serviceMember : Sim ks .even Eq (FwsmText.serviceMember e) (FwsmText.serviceMember e) := by sim
theorem leaf_Acltk_FwsmText_icmpMember : Sim ks .even Eq (FwsmText.icmpMember e) (FwsmText.icmpMember e) := by sim
theorem leaf_Acltk_FwsmText_protocolMember : Sim ks .even Eq (FwsmText.protocolMember e) (FwsmText.protocolMember e) := by sim
end


/-! ## descriptions -/

theorem ws_took {t x : Text} (h : ws t = .ok () x) : ∃ w, t = w ++ x ∧ ∀ c ∈ w, c = ' ' ∨ c = '\t' := by
  have h : P.bind (pat (.plus isWs)) (fun _ => Pure.pure ()) t = .ok () x := h
  unfold P.bind Re.plus at h
  rw [pat_seq_cls] at h
  have hw : ∀ c, isWs c = true → c = ' ' ∨ c = '\t' := by intro c hc; simpa [isWs] using hc
  cases t with
  | nil => simp [Bind.bind, P.bind, pat, Re.run] at h
  | cons c t =>
    cases hc : isWs c with
    | false => simp [Bind.bind, P.bind, pat, Re.run, hc] at h
    | true =>
      have e : pat (.cls isWs) (c :: t) = .ok [c] t := by simp [pat, Re.run, hc]
      simp only [Bind.bind, P.bind, e, pat_star, Pure.pure] at h
      cases h
      refine ⟨c :: t.takeWhile isWs, by simp, fun d hd => ?_⟩
      rcases List.mem_cons.1 hd with rfl | hd
      · exact hw _ hc
      · exact hw _ (by simpa using List.all_takeWhile (p := isWs) (l := t) |> fun h => List.all_eq_true.1 h d hd)

theorem Good.notEnd {k : String} (hk : k ∈ ks) {b x : Text} (h : Good ks (k.toList ++ (b ++ x))) (hb : ∀ c ∈ b, c = ' ' ∨ c = '\t') (r : Text) :
    x ≠ '\n' :: r := by
  rintro rfl
  obtain ⟨d, hd, h1, h2⟩ := h.ends k hk [] b r (by simp)
  rcases hb d hd with h | h
  · exact h1 h
  · exact h2 h

theorem SimR.bindAt {α β γ δ : Type} {R : α → β → Prop} {S : γ → δ → Prop} {M N : Mode} {p : P α} {p' : P β} {f : α → P γ} {f' : β → P δ} {t t' : Text}
    (h : SimR ks M R t t' (p t) (p' t'))
    (hf : ∀ v v' r r', p t = .ok v r → p' t' = .ok v' r' → R v v' → Rel ks r r' → SimR ks N S r r' (f v r) (f' v' r')) :
    SimR ks (M.comp N) S t t' ((p >>= f) t) ((p' >>= f') t') := by
  show SimR ks _ S t t' (P.bind p f t) (P.bind p' f' t')
  unfold P.bind
  cases hp : p t with
  | fail => rw [hp] at h; cases hp' : p' t' <;> rw [hp'] at h <;> cases h; exact .fail
  | raise e => rw [hp] at h; cases hp' : p' t' <;> rw [hp'] at h <;> cases h; exact .raise _
  | ok v r =>
    rw [hp] at h
    cases hp' : p' t' with
    | fail => rw [hp'] at h; cases h
    | raise e => rw [hp'] at h; cases h
    | ok v' r' =>
      rw [hp'] at h
      cases h with
      | ok hv hr l l' mv =>
        have h2 := hf v v' r r' hp hp' hv hr
        show SimR ks _ S t t' (f v r) (f' v' r')
        revert h2
        generalize f v r = x; generalize f' v' r' = y
        intro h2
        cases h2 with
        | fail => exact .fail
        | raise e => exact .raise e
        | ok a b c d e => exact .ok a b (by omega) (by omega) (mv.comp e l c l' d)

theorem tok_took {g : Guard} {s k : String} {t r : Text} (h : tok g s t = .ok k r) : t = s.toList ++ r := by
  unfold Peg.tok token at h
  cases hp : s.toList.isPrefixOf t with
  | false => simp [hp] at h
  | true =>
    obtain ⟨u, hu⟩ := List.isPrefixOf_iff_prefix.1 hp
    subst hu
    simp only [hp, if_true, List.drop_left] at h
    cases hg : g s u with
    | false => simp [hg] at h
    | true => simp only [hg, if_true] at h; cases h; rfl

theorem description_sim {g : Guard} (hg : NextChar g) (hk : "description" ∈ ks) :
    Sim ks .strict Cr (FwsmText.description g) (FwsmText.description g) := by
  intro t t' h
  unfold FwsmText.description
  refine SimR.bindAt (N := .any) (Sim.tok hg (by decide +kernel) t t' h) (fun k k' r r' h1 _ _ hr => ?_)
  refine SimR.toAny (SimR.bindAt (N := .any) (Sim.ws r r' hr) (fun _ _ x x' h2 _ _ hx => ?_))
  obtain ⟨b, hb, hbl⟩ := ws_took h2
  have hne : ∀ y, x ≠ '\n' :: y := Good.notEnd hk (b := b) (by rw [← hb, ← tok_took h1]; exact h.good) hbl
  refine SimR.toAny (SimR.bindAt (N := .any) (restOfLine_rel hx hne) (fun v v' y y' _ _ hv hy => ?_))
  exact (Sim.bindAE (M := .strict) Sim.nl (fun _ => (Sim.pure hv).toAny)) y y' hy

theorem optDescription_sim {g : Guard} (hg : NextChar g) (hk : "description" ∈ ks) :
    Sim ks .any (Opt2 Cr) (FwsmText.optDescription g) (FwsmText.optDescription g) :=
  Sim.opt (Sim.bindSE Sim.sp (fun _ => (description_sim hg hk).toAny))

theorem nameDescription_sim {g : Guard} (hg : NextChar g) (hk : "description" ∈ ks) :
    Sim ks .any (Opt2 Cr) (opt (do ws; let _ ← tok g "description"; FwsmText.restOfLine)) (opt (do ws; let _ ← tok g "description"; FwsmText.restOfLine)) := by
  refine Sim.opt (Sim.bindSE Sim.ws (fun _ => Sim.toAny (M := .strict) (fun t t' h => ?_)))
  refine SimR.bindAt (N := .any) (Sim.tok hg (by decide +kernel) t t' h) (fun k k' r r' h1 _ _ hr => ?_)
  have hne : ∀ y, r ≠ '\n' :: y := Good.notEnd hk (b := []) (by rw [List.nil_append, ← tok_took h1]; exact h.good) (by simp)
  exact (restOfLine_rel hr hne).toAny

/-! ## interfaces -/

/-- The same line but for a description. -/
inductive SameLine : Ifc.Line → Ifc.Line → Prop
  | same {l} : (∀ n, l = .nameif n → Plain n.toList) → SameLine l l
  | descr {d d'} : CrS d d' → SameLine (.description d) (.description d')

theorem crS_ofList {v v' : List Char} (h : Cr v v') : CrS (String.ofList v) (String.ofList v') := by
  unfold CrS; simpa using h

theorem interfaceDetail_sim {g : Guard} (hg : NextChar g) : Sim ks .any SameLine (FwsmText.interfaceDetail g) (FwsmText.interfaceDetail g) := by
  simw
  all_goals first
    | (refine .same (fun n h => ?_); cases h; done)
    | exact .descr (crS_ofList (by assumption))
    | (refine .same (fun n h => ?_); cases h; rw [String.toList_ofList]; assumption)

theorem SameIntf.iff {i i' : Ifc.Intf} : SameIntf i i' ↔ ∃ d, i' = { i with description := d } ∧ Opt2 CrS i.description d := by
  constructor
  · rintro ⟨h1, h2⟩
    exact ⟨i'.description, by rw [← h1], h2⟩
  · rintro ⟨d, rfl, h⟩; exact ⟨rfl, h⟩

theorem SameIntf.nameif {i i' : Ifc.Intf} (h : SameIntf i i') : i'.nameif = i.nameif ∧ i'.alias = i.alias := by
  obtain ⟨d, rfl, -⟩ := SameIntf.iff.1 h; exact ⟨rfl, rfl⟩

/-- Related results of Python. -/
inductive PyR {α β : Type} (R : α → β → Prop) : Py α → Py β → Prop
  | ok {a b} : R a b → PyR R (.ok a) (.ok b)
  | error (e) : PyR R (.error e) (.error e)

theorem Sim.actR {α β : Type} {R : α → β → Prop} {x : Py α} {y : Py β} (h : PyR R x y) : Sim ks .even R (Peg.act x) (Peg.act y) := by
  refine Sim.act ?_
  cases h with
  | ok h => exact .inl ⟨_, _, rfl, rfl, h⟩
  | error e => exact .inr ⟨e, rfl, rfl⟩

theorem switchStep_frame (i : Ifc.Intf) (c : Ifc.Switch) (d : Option String) :
    Ifc.switchStep { i with description := d } c = (Ifc.switchStep i c).map (fun x => { x with description := d }) ∧
      ∀ x, Ifc.switchStep i c = .ok x → x.description = i.description ∧ x.nameif = i.nameif ∧ x.alias = i.alias := by
  unfold Ifc.switchStep
  cases c with
  | mode m => exact ⟨rfl, fun x h => by cases h; exact ⟨rfl, rfl, rfl⟩⟩
  | trunkSet l => exact ⟨rfl, fun x h => by cases h; exact ⟨rfl, rfl, rfl⟩⟩
  | trunkAdd l =>
    cases h : (i.switchport.getD {}).trunk with
    | none => simp only [h]; exact ⟨rfl, fun x h => by cases h⟩
    | some t => simp only [h]; exact ⟨rfl, fun x h => by cases h; exact ⟨rfl, rfl, rfl⟩⟩

theorem addAddr_frame (i : Ifc.Intf) (a : Py (String × String)) (d : Option String) :
    Ifc.addAddr { i with description := d } a = (Ifc.addAddr i a).map (fun x => { x with description := d }) ∧
      ∀ x, Ifc.addAddr i a = .ok x → x.description = i.description ∧ x.nameif = i.nameif ∧ x.alias = i.alias := by
  unfold Ifc.addAddr
  cases a with
  | error e => exact ⟨rfl, fun x h => by cases h⟩
  | ok am =>
    simp only
    cases Ifc.mkIfAddr am.1 am.2 with
    | error e => exact ⟨rfl, fun x h => by cases h⟩
    | ok y => exact ⟨rfl, fun x h => by cases h; exact ⟨rfl, rfl, rfl⟩⟩

theorem addGroup_frame (i : Ifc.Intf) (f : String) (a : Py (String × String)) (d : Option String) :
    Ifc.addGroup { i with description := d } f a = (Ifc.addGroup i f a).map (fun x => { x with description := d }) ∧
      ∀ x, Ifc.addGroup i f a = .ok x → x.description = i.description ∧ x.nameif = i.nameif ∧ x.alias = i.alias := by
  unfold Ifc.addGroup
  cases a with
  | error e => exact ⟨rfl, fun x h => by cases h⟩
  | ok am => exact ⟨rfl, fun x h => by cases h; exact ⟨rfl, rfl, rfl⟩⟩

/-- An interface under construction on both sides: the same but for the description; its nameif has no line end. -/
def IfcOk (i i' : Ifc.Intf) : Prop := SameIntf i i' ∧ Plain i.alias.toList ∧ ∀ n, i.nameif = some n → Plain n.toList

theorem framed {x y : Py Ifc.Intf} {i : Ifc.Intf} {d : Option String} (h : IfcOk i { i with description := d })
    (hf : y = x.map (fun x => { x with description := d }) ∧ ∀ v, x = .ok v → v.description = i.description ∧ v.nameif = i.nameif ∧ v.alias = i.alias) :
    PyR IfcOk x y := by
  obtain ⟨rfl, h2⟩ := hf
  cases x with
  | error e => exact .error e
  | ok v =>
    obtain ⟨e1, e2, e3⟩ := h2 v rfl
    refine .ok ⟨⟨rfl, ?_⟩, ?_, ?_⟩
    · rw [e1]; exact h.1.2
    · rw [e3]; exact h.2.1
    · rw [e2]; exact h.2.2

theorem detailStep_rel {i i' : Ifc.Intf} (h : IfcOk i i') {l l' : Ifc.Line} (hl : SameLine l l') :
    PyR IfcOk (Ifc.detailStep i l.detail) (Ifc.detailStep i' l'.detail) := by
  have hi := h.1
  obtain ⟨d, rfl, hd⟩ := SameIntf.iff.1 hi
  cases hl with
  | descr hc => exact .ok ⟨⟨rfl, .some hc⟩, h.2⟩
  | same hn =>
    cases l with
    | ignored => exact .ok h
    | nameif n => exact .ok ⟨⟨rfl, hd⟩, h.2.1, fun m hm => by cases hm; exact hn n rfl⟩
    | description v => exact .ok ⟨⟨rfl, .some (.inl rfl)⟩, h.2⟩
    | ip a m =>
      have e : ∀ j, Ifc.detailStep j (Ifc.Line.detail (.ip a m)) = Ifc.addAddr j (.ok (a, m)) := fun j => by
        simp [Ifc.detailStep, Ifc.Line.detail, Ifc.index, Ifc.two, Ifc.valIndex]
      rw [e, e]; exact framed h (addAddr_frame i _ d)
    | ipAccessGroup n e =>
      have e : ∀ j, Ifc.detailStep j (Ifc.Line.detail (.ipAccessGroup n e)) = Ifc.addGroup j "ip" (.ok (n, e)) := fun j => by
        simp [Ifc.detailStep, Ifc.Line.detail, Ifc.index, Ifc.two, Ifc.valIndex]
      rw [e, e]; exact framed h (addGroup_frame i _ _ d)
    | ipv6 a p =>
      have e : ∀ j, Ifc.detailStep j (Ifc.Line.detail (.ipv6 a p)) = Ifc.addAddr j (.ok (a, p.getD "128")) := fun j => by
        cases p <;> simp [Ifc.detailStep, Ifc.Line.detail, Ifc.index, Ifc.two, Ifc.valIndex]
      rw [e, e]; exact framed h (addAddr_frame i _ d)
    | ipv6Filter n e =>
      have e : ∀ j, Ifc.detailStep j (Ifc.Line.detail (.ipv6Filter n e)) = Ifc.addGroup j "ipv6" (.ok (n, e)) := fun j => by
        simp [Ifc.detailStep, Ifc.Line.detail, Ifc.index, Ifc.two, Ifc.valIndex]
      rw [e, e]; exact framed h (addGroup_frame i _ _ d)
    | switch c => exact framed h (switchStep_frame i c d)

theorem detailLoop_rel {l l' : List Ifc.Line} (hl : All2 SameLine l l') : ∀ {i i' : Ifc.Intf}, IfcOk i i' →
    PyR IfcOk (Ifc.detailLoop i (l.map Ifc.Line.detail)) (Ifc.detailLoop i' (l'.map Ifc.Line.detail)) := by
  induction hl with
  | nil => intro i i' h; exact .ok h
  | @cons a b l m hab _ ih =>
    intro i i' h
    simp only [List.map_cons, Ifc.detailLoop]
    have := detailStep_rel h hab
    revert this
    generalize Ifc.detailStep i a.detail = x; generalize Ifc.detailStep i' b.detail = y
    intro h1
    cases h1 with
    | error e => exact .error e
    | ok h2 => exact ih h2

theorem interfaceOf_rel {a : String} (ha : Plain a.toList) {l l' : List Ifc.Line} (hl : All2 SameLine l l') :
    PyR IfcOk (Ifc.interfaceOf a l) (Ifc.interfaceOf a l') :=
  detailLoop_rel hl ⟨⟨rfl, .none⟩, ha, by simp⟩

/-! ## the state -/

/-- The interfaces are the same but for descriptions; their names have no line ends. -/
def IfcsRel (d d' : Dict String Ifc.Intf) : Prop := All2 (fun a b => b.1 = a.1 ∧ Plain a.1.toList ∧ SameIntf a.2 b.2) d d'

/-- Another table of interfaces. -/
@[reducible] def setIf (s : St) (d : Dict String Ifc.Intf) : St := { s with ifaces := d }

/-- Corresponding states of the parser. -/
structure StOk (s : St) (d' : Dict String Ifc.Intf) : Prop where
  env : EnvOk s.env
  ifaces : IfcsRel s.ifaces d'

/-- Corresponding states of the parser. -/
def StRel (s s' : St) : Prop := ∃ d', s' = setIf s d' ∧ StOk s d'

theorem IfcsRel.set {d d' : Dict String Ifc.Intf} (h : IfcsRel d d') {n : String} (hn : Plain n.toList) {i i' : Ifc.Intf} (hi : SameIntf i i') :
    IfcsRel (dSet d n i) (dSet d' n i') := by
  induction h with
  | nil => exact .cons ⟨rfl, hn, hi⟩ .nil
  | @cons a b l m hab ht ih =>
    obtain ⟨k, v⟩ := a
    obtain ⟨k', v'⟩ := b
    obtain ⟨e, e2, e3⟩ := hab
    cases e
    simp only [dSet]
    split
    · exact .cons ⟨rfl, hn, hi⟩ ht
    · exact .cons ⟨rfl, e2, e3⟩ ih

theorem IfcsRel.keys {d d' : Dict String Ifc.Intf} (h : IfcsRel d d') : keys d' = keys d ∧ ∀ n ∈ keys d, Plain n.toList := by
  induction h with
  | nil => exact ⟨rfl, by simp [AclText.keys]⟩
  | @cons a b l m hab ht ih =>
    obtain ⟨e, e2, e3⟩ := hab
    simp only [AclText.keys, List.map_cons, e, List.mem_cons] at *
    refine ⟨by rw [ih.1], ?_⟩
    rintro n (rfl | hn)
    · exact e2
    · exact ih.2 n hn

theorem IfcsRel.get {d d' : Dict String Ifc.Intf} (h : IfcsRel d d') (n : String) : Opt2 SameIntf (dGet d n) (dGet d' n) := by
  induction h with
  | nil => exact .none
  | @cons a b l m hab ht ih =>
    obtain ⟨k, v⟩ := a
    obtain ⟨k', v'⟩ := b
    obtain ⟨e, e2, e3⟩ := hab
    cases e
    simp only [dGet]
    split
    · exact .some e3
    · exact ih

theorem NamesOk.set {β : Type} {d : Dict String β} (h : NamesOk d) {n : String} (hn : Plain n.toList) (v : β) : NamesOk (dSet d n v) := by
  have key : ∀ m ∈ keys (dSet d n v), m = n ∨ m ∈ keys d := by
    intro m hm
    clear h
    induction d with
    | nil => simpa [dSet, AclText.keys] using hm
    | cons p t ih =>
      obtain ⟨k, w⟩ := p
      simp only [dSet] at hm
      split at hm
      · rename_i e; subst e; exact .inr hm
      · simp only [AclText.keys, List.map_cons, List.mem_cons] at hm ih ⊢
        rcases hm with rfl | hm
        · exact .inr (.inl rfl)
        · rcases ih hm with h | h
          · exact .inl h
          · exact .inr (.inr h)
  intro m hm
  rcases key m hm with rfl | h'
  · exact hn
  · exact h m h'

/-! ## commands -/

/-- Corresponding items and states. -/
def Step (x x' : Item × St) : Prop := SameItem x.1 x'.1 ∧ StRel x.2 x'.2

section
variable {s : St} {d' : Dict String Ifc.Intf} (hs : StOk s d')
include hs

theorem interface_sim : Sim ks .strict Step (FwsmText.interface s) (FwsmText.interface (setIf s d')) := by
  have hg := hs.env.guard
  unfold FwsmText.interface
  refine Sim.bindSE (Sim.tok hg (by decide +kernel)) (fun _ => Sim.bindAE Sim.ws (fun _ => Sim.bindAW Sim.stringP (fun a ha => Sim.bindAE Sim.nl (fun _ => ?_))))
  refine Sim.bindA (M := .even) (R := All2 SameLine) ?_ (fun l l' hl => ?_)
  · unfold FwsmText.indented
    exact Sim.many (Sim.toEven (Sim.bindSE Sim.sp (fun _ => interfaceDetail_sim hg)))
  · refine Sim.bindA (Sim.actR (interfaceOf_rel (by simpa using ha) hl)) (fun i i' hi => (Sim.pure ?_).toAny)
    obtain ⟨h1, h2, h3⟩ := hi
    refine ⟨.iface h1, ?_, ?_⟩
    · exact (match i'.nameif with
        | some n => dSet (dSet d' i'.alias i') n i'
        | none => dSet d' i'.alias i')
    · refine ⟨rfl, hs.env, ?_⟩
      show IfcsRel (match i.nameif with | some n => dSet (dSet s.ifaces i.alias i) n i | none => dSet s.ifaces i.alias i) _
      have e := h1.nameif
      rw [e.1, e.2]
      cases hn : i.nameif with
      | none => exact hs.ifaces.set h2 h1
      | some n => exact (hs.ifaces.set h2 h1).set (h3 n hn) h1

theorem leaf_Acltk_FwsmText_interfaceRef : Sim ks .even SameIntf (FwsmText.interfaceRef s) (FwsmText.interfaceRef (setIf s d')) := by
  intro t t' h
  unfold FwsmText.interfaceRef
  show SimR ks _ _ t t' _ (match internalIds s.env.guard (keys d') t' with | some (n, r) => (match dGet d' n with | some i => .ok i r | none => .raise .key) | none => .fail)
  rw [hs.ifaces.keys.1]
  rcases internalIds_rel hs.env.guard hs.ifaces.keys.2 h with ⟨h1, h2⟩ | ⟨n, r, r', h0, h1, h2, h3, h4, h5⟩
  · rw [h1, h2]; exact .fail
  · rw [h1, h2]
    simp only
    have := hs.ifaces.get n
    revert this
    generalize dGet s.ifaces n = x; generalize dGet d' n = y
    intro hxy
    cases hxy with
    | none => exact .raise _
    | some hi =>
      have e1 := congrArg List.length h4
      have e2 := congrArg List.length h5
      simp only [List.length_append] at e1 e2
      exact .ok hi h3 (by omega) (by omega) (by simp only [Moves]; omega)

theorem leaf_Acltk_FwsmText_natIface : Sim ks .even Eq (FwsmText.natIface s) (FwsmText.natIface (setIf s d')) := by
  have hg := hs.env.guard
  unfold FwsmText.natIface
  refine Sim.alt (Sim.toEven (Sim.bindSE (Sim.tok hg (by decide +kernel)) (fun _ => Sim.pureE.toAny))) ?_
  refine Sim.bindE (leaf_Acltk_FwsmText_interfaceRef hs) (fun i i' hi => Sim.pure ?_)
  rw [hi.nameif.1, hi.nameif.2]
end

macro_rules | `(tactic| sim_side) => `(tactic| exact EnvOk.guard (StOk.env (by assumption)))
macro_rules | `(tactic| sim_side) => `(tactic| first
  | exact EnvOk.names (StOk.env (by assumption)) | exact EnvOk.netObjs (StOk.env (by assumption)) | exact EnvOk.netGroups (StOk.env (by assumption))
  | exact EnvOk.svcObjs (StOk.env (by assumption)))

section
variable {s : St} {d' : Dict String Ifc.Intf} (hs : StOk s d')
include hs

theorem leaf_Acltk_FwsmText_natInterfaces : Sim ks .strict Eq (FwsmText.natInterfaces s) (FwsmText.natInterfaces (setIf s d')) := by sim
theorem leaf_Acltk_FwsmText_netRef : Sim ks .even Eq (FwsmText.netRef s) (FwsmText.netRef (setIf s d')) := by sim
theorem leaf_Acltk_FwsmText_patPool : Sim ks .strict Eq (FwsmText.patPool s) (FwsmText.patPool (setIf s d')) := by sim
theorem leaf_Acltk_FwsmText_natMapped : Sim ks .any Eq (FwsmText.natMapped s) (FwsmText.natMapped (setIf s d')) := by sim
theorem leaf_Acltk_FwsmText_mappedNode : Sim ks .even Eq (FwsmText.mappedNode s) (FwsmText.mappedNode (setIf s d')) := by sim
theorem leaf_Acltk_FwsmText_mappedDynamic : Sim ks .any Eq (FwsmText.mappedDynamic s) (FwsmText.mappedDynamic (setIf s d')) := by sim
theorem leaf_Acltk_FwsmText_realNode : Sim ks .even Eq (FwsmText.realNode s) (FwsmText.realNode (setIf s d')) := by sim
theorem leaf_Acltk_FwsmText_natSrc : Sim ks .strict Eq (FwsmText.natSrc s) (FwsmText.natSrc (setIf s d')) := by sim
theorem leaf_Acltk_FwsmText_natDst : Sim ks .strict Eq (FwsmText.natDst s) (FwsmText.natDst (setIf s d')) := by sim

theorem leaf_Acltk_FwsmText_objectNatHead {ty : String} (hk : Plain ty.toList ∧ ty.toList ≠ []) :
    Sim ks .strict Eq (FwsmText.objectNatHead s ty) (FwsmText.objectNatHead (setIf s d') ty) := by sim

theorem leaf_Acltk_FwsmText_objectNat : Sim ks .strict Eq (FwsmText.objectNat s) (FwsmText.objectNat (setIf s d')) := by
  unfold FwsmText.objectNat
  refine Sim.alt ?_ ?_
  · refine Sim.bindSE (leaf_Acltk_FwsmText_objectNatHead hs (by decide +kernel)) (fun x => ?_)
    obtain ⟨i, m⟩ := x
    sim
  · refine Sim.bindSE (leaf_Acltk_FwsmText_objectNatHead hs (by decide +kernel)) (fun x => ?_)
    obtain ⟨i, m⟩ := x
    sim
end

/-- The same option but for a description. -/
def SameNatOption (o o' : String × Option String) : Prop := o.1 = o'.1 ∧ Opt2 CrS o.2 o'.2

theorem natOption_sim {g : Guard} (hg : NextChar g) : Sim ks .strict SameNatOption (FwsmText.natOption g) (FwsmText.natOption g) := by
  sim
  · exact ⟨rfl, .none⟩
  · exact ⟨rfl, .some (crS_ofList (by assumption))⟩
  · exact ⟨rfl, .none⟩

theorem natOptions_rel {l l' : List (String × Option String)} (h : All2 SameNatOption l l') : ∀ {a b : Option String × List String},
    Opt2 CrS a.1 b.1 ∧ a.2 = b.2 → Opt2 CrS (l.foldl NatCmd.optionStep a).1 (l'.foldl NatCmd.optionStep b).1 ∧
      (l.foldl NatCmd.optionStep a).2 = (l'.foldl NatCmd.optionStep b).2 := by
  induction h with
  | nil => exact fun h => h
  | @cons o o' l m ho _ ih =>
    intro a b h
    refine ih ?_
    unfold NatCmd.optionStep
    rw [← ho.1]
    split
    · exact ⟨ho.2, h.2⟩
    · exact ⟨h.1, by rw [h.2]⟩

theorem twiceNat_rel {c : NatCmd.Cmd} {l l' : List (String × Option String)} (h : All2 SameNatOption l l') :
    PyR (Opt2 SameNat) (NatCmd.twiceNat { c with options := l }) (NatCmd.twiceNat { c with options := l' }) := by
  unfold NatCmd.twiceNat
  cases hi : c.iface with
  | none => exact .ok .none
  | some i =>
    simp only
    cases NatCmd.services c.src.type c.service with
    | error e => exact .error e
    | ok x =>
      have key := natOptions_rel h (a := (none, [])) (b := (none, [])) ⟨.none, rfl⟩
      refine .ok (.some ⟨?_, key.1⟩)
      simp only [key.2]

theorem natItem_rel {n n' : Option NatCmd.Nat'} (h : Opt2 SameNat n n') : SameItem (FwsmText.natItem n) (FwsmText.natItem n') := by
  cases h with
  | none => exact .nothing
  | some h => exact .nat h

section
variable {s : St} {d' : Dict String Ifc.Intf} (hs : StOk s d')
include hs

theorem nat_sim : Sim ks .strict SameItem (FwsmText.nat s) (FwsmText.nat (setIf s d')) := by
  have hg := hs.env.guard
  unfold FwsmText.nat
  refine Sim.alt ?_ ?_
  · refine Sim.bindSE (by sim) (fun _ => Sim.bindAE Sim.ws (fun _ => ?_))
    refine Sim.bindAE (M := .strict) (by sim) (fun i => ?_)
    refine Sim.bindAE (M := .any) (by sim) (fun pos => ?_)
    refine Sim.bindAE Sim.ws (fun _ => ?_)
    refine Sim.bindAE (M := .strict) (by sim) (fun src => ?_)
    refine Sim.bindAE (M := .any) (by sim) (fun dst => ?_)
    refine Sim.bindAE (M := .any) ?_ (fun sv => ?_)
    · sim
    refine Sim.bindA (Sim.manyS (Sim.bindSE Sim.ws (fun _ => (natOption_sim hg).toAny))) (fun l l' hl => ?_)
    refine Sim.bindAE (M := .any) (by sim) (fun _ => Sim.bindAE Sim.nl (fun _ => ?_))
    refine Sim.bindA (Sim.actR (twiceNat_rel (c := { iface := some i, pos := pos.isSome, src := src, dst := dst, service := sv, options := l }) hl)) (fun n n' hn => ?_)
    exact (Sim.pure (natItem_rel hn)).toAny
  · sim
    exact .nothing
end


/-! ## definitions -/

theorem Word.toList {v : List Char} (h : Plain v) : Plain (String.ofList v).toList := by rwa [String.toList_ofList]

section
variable {s : St} {d' : Dict String Ifc.Intf} (hs : StOk s d') (hk : "description" ∈ ks)
include hs

theorem timeRange_sim : Sim ks .strict Step (FwsmText.timeRange s) (FwsmText.timeRange (setIf s d')) := by
  have hg := hs.env.guard
  have he := hs.env
  simw
  exact ⟨.timeRange _ _ _, d', rfl, ⟨he.guard, he.names, he.netObjs, he.netGroups, he.svcObjs, he.svcGroups, he.portGroups, he.icmpGroups,
    he.protoGroups, he.timeRanges.set (Word.toList (by assumption)) _⟩, hs.ifaces⟩

include hk

theorem name_sim : Sim ks .strict Step (FwsmText.name s) (FwsmText.name (setIf s d')) := by
  have hg := hs.env.guard
  have he := hs.env
  unfold FwsmText.name
  refine Sim.bindSE (by sim) (fun _ => Sim.bindAE Sim.ws (fun _ => ?_))
  refine Sim.bindAE (M := .strict) (by sim) (fun a => Sim.bindAE Sim.ws (fun _ => ?_))
  refine Sim.bindAW Sim.identifier (fun n hn => ?_)
  refine Sim.bindA (nameDescription_sim hg hk) (fun d e hd => Sim.bindAE Sim.nl (fun _ => (Sim.pure ?_).toAny))
  exact ⟨.name _ _ hd, d', rfl, ⟨he.guard, he.names.set (Word.toList hn) _, he.netObjs, he.netGroups, he.svcObjs, he.svcGroups, he.portGroups, he.icmpGroups,
    he.protoGroups, he.timeRanges⟩, hs.ifaces⟩

theorem objectNetwork_sim : Sim ks .strict Step (FwsmText.objectNetwork s) (FwsmText.objectNetwork (setIf s d')) := by
  have hg := hs.env.guard
  have he := hs.env
  unfold FwsmText.objectNetwork
  refine Sim.bindSE (by sim) (fun _ => Sim.bindAE Sim.ws (fun _ => ?_))
  refine Sim.bindAW Sim.objName (fun n hn => ?_)
  refine Sim.bindAE (M := .any) (by sim) (fun args => ?_)
  refine Sim.bindAE (M := .any) (by sim) (fun nt => ?_)
  refine Sim.bindA (optDescription_sim hg hk) (fun d e hd => ?_)
  refine Sim.bindAE (M := .even) Sim.actEq (fun l => (Sim.pure ?_).toAny)
  refine ⟨.netObj _ _ _ hd, d', rfl, ?_, hs.ifaces⟩
  show EnvOk (if (dGet s.env.netObjs (String.ofList n)).isSome then s.env else _)
  split
  · exact he
  · exact ⟨he.guard, he.names, he.netObjs.set (Word.toList hn) _, he.netGroups, he.svcObjs, he.svcGroups, he.portGroups, he.icmpGroups,
      he.protoGroups, he.timeRanges⟩

theorem objectService_sim : Sim ks .strict Step (FwsmText.objectService s) (FwsmText.objectService (setIf s d')) := by
  have hg := hs.env.guard
  have he := hs.env
  unfold FwsmText.objectService
  refine Sim.bindSE (by sim) (fun _ => Sim.bindAE Sim.ws (fun _ => ?_))
  refine Sim.bindAW Sim.objName (fun n hn => ?_)
  refine Sim.bindAE (M := .any) (by sim) (fun args => ?_)
  refine Sim.bindA (optDescription_sim hg hk) (fun d e hd => ?_)
  refine Sim.bindAE (M := .even) Sim.actEq (fun l => (Sim.pure ?_).toAny)
  refine ⟨.svcObj _ _ _ hd, d', rfl, ?_, hs.ifaces⟩
  show EnvOk (if (dGet s.env.svcObjs (String.ofList n)).isSome then s.env else _)
  split
  · exact he
  · exact ⟨he.guard, he.names, he.netObjs, he.netGroups, he.svcObjs.set (Word.toList hn) _, he.svcGroups, he.portGroups, he.icmpGroups,
      he.protoGroups, he.timeRanges⟩

theorem object_sim : Sim ks .strict Step (FwsmText.object s) (FwsmText.object (setIf s d')) :=
  Sim.bindSE (Sim.tok hs.env.guard (by decide +kernel)) (fun _ => Sim.bindAE Sim.ws (fun _ =>
    Sim.toAny (Sim.alt (objectNetwork_sim hs hk) (objectService_sim hs hk))))
end

/-- The same group but for the description. -/
def SameBody {α : Type} (x x' : String × Option (List Char) × List α) : Prop :=
  x.1 = x'.1 ∧ Opt2 Cr x.2.1 x'.2.1 ∧ x.2.2 = x'.2.2 ∧ Plain x.1.toList

theorem groupBody_sim {g : Guard} (hg : NextChar g) (hk : "description" ∈ ks) {α : Type} {M : Mode} {p : P α} (hp : Sim ks M Eq p p) :
    Sim ks .strict SameBody (FwsmText.groupBody g p) (FwsmText.groupBody g p) := by
  unfold FwsmText.groupBody
  refine Sim.bindSE Sim.ws (fun _ => Sim.bindAW Sim.objName (fun n hn => ?_))
  refine Sim.bindAE (M := .any) (by sim) (fun _ => Sim.bindAE Sim.nl (fun _ => ?_))
  refine Sim.bindA (optDescription_sim hg hk) (fun d e hd => ?_)
  refine Sim.bindAE (M := .even) (p := FwsmText.indented p) (Sim.manyEqS (Sim.bindSE Sim.sp (fun _ => hp.toAny))) (fun l => (Sim.pure ?_).toAny)
  exact ⟨rfl, hd, rfl, Word.toList hn⟩

section
variable {s : St} {d' : Dict String Ifc.Intf} (hs : StOk s d') (hk : "description" ∈ ks)
include hs hk

theorem objectGroup_sim : Sim ks .strict Step (FwsmText.objectGroup s) (FwsmText.objectGroup (setIf s d')) := by
  have hg := hs.env.guard
  have he := hs.env
  refine Sim.bindSE (Sim.tok hs.env.guard (by decide +kernel)) (fun _ => Sim.bindAE Sim.ws (fun _ => Sim.toAny (M := .strict) ?_))
  unfold FwsmText.objectGroupType
  refine Sim.altsCons ?_ (Sim.altsCons ?_ (Sim.altsCons ?_ (Sim.altsCons ?_ (Sim.altsCons ?_ Sim.altsNil))))
  · refine Sim.bindSE (by sim) (fun _ => Sim.bindA (groupBody_sim hg hk (leaf_Acltk_FwsmText_networkMember he)) (fun x x' h => ?_))
    obtain ⟨n, d, l⟩ := x
    obtain ⟨n', e, l'⟩ := x'
    obtain ⟨h1, h2, h3, h4⟩ := h
    cases h1; cases h3
    exact (Sim.pure ⟨.netGroup _ _ h2, d', rfl, ⟨he.guard, he.names, he.netObjs, he.netGroups.set h4 _, he.svcObjs, he.svcGroups, he.portGroups,
      he.icmpGroups, he.protoGroups, he.timeRanges⟩, hs.ifaces⟩).toAny
  · refine Sim.bindSE (by sim) (fun _ => Sim.bindAE Sim.ws (fun _ => Sim.bindAW Sim.objName (fun n hn => ?_)))
    refine Sim.bindAE Sim.ws (fun _ => Sim.bindAE (M := .strict) (by sim) (fun p => ?_))
    refine Sim.bindAE (M := .any) (by sim) (fun _ => Sim.bindAE Sim.nl (fun _ => ?_))
    refine Sim.bindA (optDescription_sim hg hk) (fun d e hd => ?_)
    refine Sim.bindAE (M := .even) (by sim) (fun l => Sim.bindAE (M := .even) Sim.actEq (fun l => ?_))
    exact (Sim.pure ⟨.portGroup _ _ _ _ hd, d', rfl, ⟨he.guard, he.names, he.netObjs, he.netGroups, he.svcObjs, he.svcGroups,
      he.portGroups.set (Word.toList hn) _, he.icmpGroups, he.protoGroups, he.timeRanges⟩, hs.ifaces⟩).toAny
  · refine Sim.bindSE (by sim) (fun _ => Sim.bindA (groupBody_sim hg hk (leaf_Acltk_FwsmText_serviceMember he)) (fun x x' h => ?_))
    obtain ⟨n, d, l⟩ := x
    obtain ⟨n', e, l'⟩ := x'
    obtain ⟨h1, h2, h3, h4⟩ := h
    cases h1; cases h3
    exact (Sim.pure ⟨.svcGroup _ _ _ h2, d', rfl, ⟨he.guard, he.names, he.netObjs, he.netGroups, he.svcObjs, he.svcGroups.set h4 _, he.portGroups,
      he.icmpGroups, he.protoGroups, he.timeRanges⟩, hs.ifaces⟩).toAny
  · refine Sim.bindSE (by sim) (fun _ => Sim.bindA (groupBody_sim hg hk (leaf_Acltk_FwsmText_icmpMember he)) (fun x x' h => ?_))
    obtain ⟨n, d, l⟩ := x
    obtain ⟨n', e, l'⟩ := x'
    obtain ⟨h1, h2, h3, h4⟩ := h
    cases h1; cases h3
    exact (Sim.pure ⟨.icmpGroup _ _ _ h2, d', rfl, ⟨he.guard, he.names, he.netObjs, he.netGroups, he.svcObjs, he.svcGroups, he.portGroups,
      he.icmpGroups.set h4 _, he.protoGroups, he.timeRanges⟩, hs.ifaces⟩).toAny
  · refine Sim.bindSE (by sim) (fun _ => Sim.bindA (groupBody_sim hg hk (leaf_Acltk_FwsmText_protocolMember he)) (fun x x' h => ?_))
    obtain ⟨n, d, l⟩ := x
    obtain ⟨n', e, l'⟩ := x'
    obtain ⟨h1, h2, h3, h4⟩ := h
    cases h1; cases h3
    exact (Sim.pure ⟨.protoGroup _ _ _ h2, d', rfl, ⟨he.guard, he.names, he.netObjs, he.netGroups, he.svcObjs, he.svcGroups, he.portGroups,
      he.icmpGroups, he.protoGroups.set h4 _, he.timeRanges⟩, hs.ifaces⟩).toAny
end

/-! ## the rest -/

theorem Cr.optRefl (d : Option (List Char)) : Opt2 Cr d d := Opt2.refl (fun _ => .inl rfl) d
theorem CrS.optRefl (d : Option String) : Opt2 CrS d d := Opt2.refl (fun _ => .inl rfl) d

theorem SameItem.refl (i : Item) : SameItem i i := by
  cases i with
  | version s => exact .version (.inl rfl)
  | hostname s => exact .hostname s
  | domain s => exact .domain s
  | iface i => exact .iface ⟨rfl, CrS.optRefl _⟩
  | name => exact .name _ _ (Cr.optRefl _)
  | timeRange => exact .timeRange _ _ _
  | netObj => exact .netObj _ _ _ (Cr.optRefl _)
  | svcObj => exact .svcObj _ _ _ (Cr.optRefl _)
  | netGroup => exact .netGroup _ _ (Cr.optRefl _)
  | portGroup => exact .portGroup _ _ _ _ (Cr.optRefl _)
  | svcGroup => exact .svcGroup _ _ _ (Cr.optRefl _)
  | icmpGroup => exact .icmpGroup _ _ _ (Cr.optRefl _)
  | protoGroup => exact .protoGroup _ _ _ (Cr.optRefl _)
  | rule r => exact .rule (SameRule.refl r)
  | remarks l => exact .remarks (All2.refl (fun _ => .inl rfl) l)
  | accessGroup => exact .accessGroup _ _ _
  | nat => exact .nat ⟨rfl, CrS.optRefl _⟩
  | nothing => exact .nothing

theorem version_sim : Sim ks .strict SameItem FwsmText.version FwsmText.version := by
  unfold FwsmText.version
  refine Sim.bindS (R := Cr) (Sim.alt ?_ ?_) (fun v v' hv => Sim.bindAE Sim.nl (fun _ => (Sim.pure (.version hv)).toAny))
  · have h : Sim ks .any Cr (pat (.star (· != '\n'))) (pat (.star (· != '\n'))) := Sim.toeol
    have c : ∀ {c : Char} {b : Re} {M : Mode}, c ≠ '\n' ∧ c ≠ '\r' → Sim ks M Cr (pat b) (pat b) →
      Sim ks .strict Cr (pat (.seq (.chr c) b)) (pat (.seq (.chr c) b)) := fun h1 h2 => Sim.patLine h1.1 h1.2 h2
    exact c (by decide) (c (by decide) (c (by decide) (c (by decide) (c (by decide) (c (by decide) (c (by decide) (c (by decide)
      (c (by decide) (c (by decide) (c (by decide) (c (by decide) h)))))))))))
  · have h : Sim ks .any Cr (pat (.star (· != '\n'))) (pat (.star (· != '\n'))) := Sim.toeol
    have c : ∀ {c : Char} {b : Re} {M : Mode}, c ≠ '\n' ∧ c ≠ '\r' → Sim ks M Cr (pat b) (pat b) →
      Sim ks .strict Cr (pat (.seq (.chr c) b)) (pat (.seq (.chr c) b)) := fun h1 h2 => Sim.patLine h1.1 h1.2 h2
    exact c (by decide) (c (by decide) (c (by decide) (c (by decide) (c (by decide) (c (by decide) (c (by decide) (c (by decide)
      (c (by decide) (c (by decide) (c (by decide) (c (by decide) (c (by decide) h))))))))))))

theorem leaf_Acltk_FwsmText_ignoredIndent : Sim ks .even Eq FwsmText.ignoredIndent FwsmText.ignoredIndent := by
  sim

theorem tail_sim (k : FwsmText.Tail) : Sim ks .strict Eq (FwsmText.tail k) (FwsmText.tail k) := by
  cases k <;> unfold FwsmText.tail
  · sim
  · sim
  · refine Sim.bindT (M := .any) (R := Opt2 Cr) ?_ (fun _ _ _ => Sim.nl)
    sim
  · sim
  · sim
  · sim

theorem ignored_sim {g : Guard} (hg : NextChar g) : Sim ks .strict SameItem (FwsmText.ignored g) (FwsmText.ignored g) := by
  unfold FwsmText.ignored
  have h : ∀ kt ∈ FwsmText.ignoredList, Plain kt.1.toList ∧ kt.1.toList ≠ [] := by decide +kernel
  revert h
  generalize FwsmText.ignoredList = l
  intro h
  induction l with
  | nil => exact Sim.altsNil
  | cons kt l ih =>
    refine Sim.altsCons ?_ (ih (fun x hx => h x (by simp [hx])))
    exact Sim.bindSE (Sim.tok hg (h kt (by simp))) (fun _ => Sim.bindAE (tail_sim _) (fun _ => (Sim.pure .nothing).toAny))

section
variable {s : St} {d' : Dict String Ifc.Intf} (hs : StOk s d') (hk : "description" ∈ ks)
include hs

theorem keep_sim {p p' : P Item} (h : Sim ks .strict SameItem p p') : Sim ks .strict Step (FwsmText.keep s p) (FwsmText.keep (setIf s d') p') :=
  Sim.bindS h (fun _ _ hv => (Sim.pure ⟨hv, d', rfl, hs⟩).toAny)

include hk

theorem command_sim : Sim ks .strict Step (FwsmText.command s) (FwsmText.command (setIf s d')) := by
  have hg := hs.env.guard
  have he := hs.env
  unfold FwsmText.command
  refine Sim.altsCons (keep_sim hs version_sim) (Sim.altsCons (keep_sim hs ?_) (Sim.altsCons (keep_sim hs ?_) (Sim.altsCons (interface_sim hs)
    (Sim.altsCons (name_sim hs hk) (Sim.altsCons (timeRange_sim hs) (Sim.altsCons (object_sim hs hk) (Sim.altsCons (objectGroup_sim hs hk)
    (Sim.altsCons (keep_sim hs ?_) (Sim.altsCons (keep_sim hs ?_) (Sim.altsCons (keep_sim hs ?_) (Sim.altsCons (keep_sim hs (nat_sim hs))
    (Sim.altsCons (keep_sim hs (ignored_sim hg)) (Sim.altsCons (keep_sim hs ?_) Sim.altsNil)))))))))))))
  · sim
    exact .hostname _
  · sim
    exact .domain _
  · refine Sim.bindS (leaf_Acltk_AclText_accessList he) (fun r r' hr => (Sim.pure ?_).toAny)
    cases hr with
    | none => exact .nothing
    | some h => exact .rule h
  · exact Sim.bindS (Sim.many1 (.inl rfl) (leaf_Acltk_AclText_remarkLine he)) (fun l l' hl => (Sim.pure (.remarks hl)).toAny)
  · refine (leaf_Acltk_FwsmText_accessGroup hg).mono ?_
    rintro v _ rfl
    exact SameItem.refl v
  · exact Sim.bindSE Sim.nl (fun _ => (Sim.pure .nothing).toAny)
end

theorem commands_sim (hk : "description" ∈ ks) : ∀ (t t' : Text) (s : St) (d' : Dict String Ifc.Intf), StOk s d' → Rel ks t t' →
    SimR ks .even (fun x x' => All2 SameItem x.1 x'.1 ∧ StRel x.2 x'.2) t t' (FwsmText.commands s t) (FwsmText.commands (setIf s d') t') := by
  intro t
  induction hn : t.length using Nat.strongRecOn generalizing t with
  | _ n ih =>
    intro t' s d' hs hr
    have h1 := command_sim hs hk t t' hr
    rw [FwsmText.commands, FwsmText.commands]
    revert h1
    generalize FwsmText.command s t = x; generalize FwsmText.command (setIf s d') t' = y
    intro h1
    cases h1 with
    | fail => exact .ok ⟨.nil, d', rfl, hs⟩ hr (Nat.le_refl _) (Nat.le_refl _) (by simp [Moves])
    | raise e => exact .raise e
    | @ok v v' r r' hv hrel l l' mv =>
      obtain ⟨i, s1⟩ := v
      obtain ⟨i', s1'⟩ := v'
      obtain ⟨hi, d2, e, hs2⟩ := hv
      simp only at e
      subst e
      have hlt := mv.1
      have hlt' := mv.2
      simp only [hlt, hlt', if_true]
      have h2 := ih r.length (by omega) r rfl r' s1 d2 hs2 hrel
      revert h2
      generalize FwsmText.commands s1 r = x; generalize FwsmText.commands (setIf s1 d2) r' = y
      intro h2
      cases h2 with
      | fail => exact .fail
      | raise e => exact .raise e
      | @ok w w' u u' hw hu m1 m2 mv2 =>
        obtain ⟨l, s3⟩ := w
        obtain ⟨l', s3'⟩ := w'
        refine .ok ⟨.cons hi hw.1, hw.2⟩ hu (by omega) (by omega) ?_
        simp only [Moves] at *
        omega

theorem parseFile_sim {g : Guard} (hg : NextChar g) {t t' : Text} (he : LineEnds t t') (h : Good ["description"] t) :
    SameOutcome (All2 SameItem) (FwsmText.parseFile g t) (FwsmText.parseFile g t') := by
  have h0 : StOk { env := { guard := g } } [] :=
    ⟨⟨hg, by simp [NamesOk, keys], by simp [NamesOk, keys], by simp [NamesOk, keys], by simp [NamesOk, keys], by simp [NamesOk, keys],
      by simp [NamesOk, keys], by simp [NamesOk, keys], by simp [NamesOk, keys], by simp [NamesOk, keys]⟩, .nil⟩
  have h1 := commands_sim (ks := ["description"]) (by simp) t t' _ [] h0 ⟨h, he⟩
  unfold FwsmText.parseFile
  revert h1
  show SimR _ _ _ _ _ (FwsmText.commands { env := { guard := g } } t) (FwsmText.commands { env := { guard := g } } t') → _
  generalize FwsmText.commands { env := { guard := g } } t = x; generalize FwsmText.commands { env := { guard := g } } t' = y
  intro h1
  cases h1 with
  | fail => exact .refused
  | raise e => exact .raised e
  | @ok v v' r r' hv hr _ _ _ =>
    obtain ⟨l, s1⟩ := v
    obtain ⟨l', s1'⟩ := v'
    have hl : All2 SameItem l l' := hv.1
    rcases hr.cases_on with ⟨rfl, rfl⟩ | ⟨x, x', rfl, hx', rfl | rfl⟩ | ⟨c, x, x', -, -, rfl, rfl, -⟩
    · cases hl with
      | nil => exact .refused
      | cons a b => exact .parsed (.cons a b)
    · exact .refused
    · exact .refused
    · exact .refused

end Acltk.Dos
