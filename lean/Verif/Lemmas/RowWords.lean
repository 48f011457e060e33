import Verif.Spec.RowSpec
import Verif.Lemmas.FwsmHosts
import Verif.Lemmas.AclPort
/-!
# The words in the rules of whatever FWSM text is accepted
-/
namespace Acltk.FwsmText
open Acltk Acltk.Lookup Acltk.Peg Acltk.AclText

variable {α β : Type} {g : Guard} {s : St} {e : Env}

/-- The port is made of words of the grammar. -/
def PortOk : Option PortVal → Prop
  | some (.port op _) => op ∈ ["gt", "lt", "eq", "neq"]
  | some (.range a b) => Cells.PortText a ∧ Cells.PortText b
  | some (.service _) => False
  | _ => True

/-- The type is not empty. -/
def IcmpOk : Option IcmpVal → Prop
  | some (.icmp ty _) => ty ≠ ""
  | _ => True

/-- The options are filed under their keys, once. -/
def OptionsOk (d : Dict String Opt) : Prop := (∀ p ∈ d, p.2.key = some p.1) ∧ (d.map (·.1)).Nodup

structure RowOk (r : PRule) : Prop where
  src : PortOk r.src.port
  dst : PortOk r.dst.port
  icmp : IcmpOk r.icmp
  options : OptionsOk r.options

theorem val_oneOf (l : List String) : Val (oneOf g l) (· ∈ l) := by
  intro t a r h
  obtain ⟨c, -, ⟨h, -⟩⟩ := reads_oneOf _ _ _ _ _ h
  exact h

theorem val_digits : Val intP (fun l => ∀ c ∈ l, c.isDigit = true) := by
  intro t a r h
  obtain ⟨c, -, rfl, hc⟩ := reads_intP _ _ _ h
  exact hc

theorem portCodes_words : ∀ w ∈ portCodes, w ∈ Words.ports := by decide +kernel

theorem pyInt_nil : pyInt [] = none := by decide +kernel

theorem ofList_ne {l : List Char} (h : l ≠ []) : String.ofList l ≠ "" := by
  intro e
  have := congrArg String.toList e
  rw [String.toList_ofList] at this
  exact h this

theorem checkedInt_ne {m : Nat} {l n : List Char} (h : checkedInt m l = .ok n) : n = l ∧ l ≠ [] := by
  unfold checkedInt at h
  split at h
  · cases h
  · rename_i hp
    split at h
    · cases h
      refine ⟨rfl, ?_⟩
      rintro rfl
      rw [pyInt_nil] at hp
      cases hp
    · cases h

theorem val_port : Val (port g) Cells.PortText := by
  unfold port
  refine Val.alt ?_ ?_
  · exact Val.skip fun _ => (val_oneOf _).mono fun w h => .inl (portCodes_words w h)
  · refine Val.bind val_digits fun l hl => Val.bind (V := fun n => n = l ∧ l ≠ []) (Val.act fun n hn => checkedInt_ne hn) fun n hn => Val.pure ?_
    obtain ⟨rfl, hne⟩ := hn
    exact .inr ⟨ofList_ne hne, by rw [String.toList_ofList]; exact hl⟩

theorem icmpNames_ne : ∀ w ∈ icmpNames, w ≠ "" := by decide +kernel

theorem val_icmpType : Val (icmpType g) (· ≠ "") := by
  unfold icmpType
  refine Val.alt ?_ ?_
  · exact Val.skip fun _ => (val_oneOf _).mono fun w h => icmpNames_ne w h
  · refine Val.skip fun l => Val.bind (V := fun n => n = l ∧ l ≠ []) (Val.act fun n hn => checkedInt_ne hn) fun n hn => Val.pure ?_
    obtain ⟨rfl, hne⟩ := hn
    exact ofList_ne hne

/-- A port as `aclPort` reads it. -/
def PortVOk : PortVal → Prop
  | .port op _ => op ∈ ["gt", "lt", "eq", "neq"]
  | .range a b => Cells.PortText a ∧ Cells.PortText b
  | _ => True

theorem val_aclPort : Val (AclText.aclPort e) PortVOk := by
  unfold AclText.aclPort
  refine Val.alts_cons ?_ <| Val.alts_cons ?_ <| Val.alts_cons ?_ <| Val.alts_cons ?_ Val.alts_nil
  · exact Val.skip fun _ => Val.skip fun _ => Val.skip fun _ => Val.pure trivial
  · exact Val.skip fun _ => Val.skip fun _ => Val.skip fun _ => Val.pure trivial
  · exact Val.bind (val_oneOf _) fun op h => Val.skip fun _ => Val.skip fun _ => Val.pure h
  · exact Val.skip fun _ => Val.skip fun _ => Val.bind val_port fun a ha => Val.skip fun _ => Val.bind val_port fun b hb =>
      Val.skip fun _ => Val.pure ⟨ha, hb⟩

theorem val_nodePort : Val (node e) (fun n => PortOk n.port) := by
  unfold node
  refine Val.skip fun h => Val.bind (Val.opt (p := (do ws; AclText.aclPort e)) (Val.skip fun _ => val_aclPort)) fun p hp => Val.act ?_
  intro a ha
  match p with
  | none => cases ha; trivial
  | some (.service _) => cases ha
  | some (.port _ _) => cases ha; exact hp _ rfl
  | some (.range _ _) => cases ha; exact hp _ rfl
  | some (.group _) => cases ha; trivial

theorem val_icmpOptions : Val (icmpOptions e) IcmpOk := by
  unfold icmpOptions
  refine Val.alts_cons ?_ <| Val.alts_cons ?_ <| Val.alts_cons ?_ Val.alts_nil
  · exact Val.skip fun _ => Val.skip fun _ => Val.skip fun _ => Val.skip fun _ => Val.pure trivial
  · exact Val.skip fun _ => Val.bind val_icmpType fun ty h => Val.skip fun _ => Val.pure h
  · exact Val.pure trivial

theorem mem_dSet_keys {V : Type} {d : Dict String V} {k x : String} {v : V} (h : x ∈ (dSet d k v).map (·.1)) : x = k ∨ x ∈ d.map (·.1) := by
  induction d with
  | nil => simp [dSet] at h; exact .inl h
  | cons p d ih =>
    obtain ⟨k', v'⟩ := p
    simp only [dSet] at h
    split at h
    · rcases List.mem_cons.1 h with h | h
      · exact .inl h
      · exact .inr (List.mem_cons_of_mem _ h)
    · rcases List.mem_cons.1 h with h | h
      · exact .inr (by rw [h]; exact List.mem_cons_self)
      · rcases ih h with h | h
        · exact .inl h
        · exact .inr (List.mem_cons_of_mem _ h)

theorem nodup_dSet {V : Type} {d : Dict String V} {k : String} {v : V} (h : (d.map (·.1)).Nodup) : ((dSet d k v).map (·.1)).Nodup := by
  induction d with
  | nil => simp [dSet]
  | cons p d ih =>
    obtain ⟨k', v'⟩ := p
    simp only [List.map_cons, List.nodup_cons] at h
    simp only [dSet]
    split
    · rename_i hk
      simp only [List.map_cons, List.nodup_cons]
      exact ⟨by rw [← hk]; exact h.1, h.2⟩
    · rename_i hk
      simp only [List.map_cons, List.nodup_cons]
      refine ⟨fun hm => ?_, ih h.2⟩
      rcases mem_dSet_keys hm with e | e
      · exact hk e
      · exact h.1 e

theorem mem_dSet' {V : Type} {d : Dict String V} {k : String} {v : V} {p : String × V} (h : p ∈ dSet d k v) : p = (k, v) ∨ p ∈ d := by
  induction d with
  | nil => simp [dSet] at h; exact .inl h
  | cons q d ih =>
    obtain ⟨k', v'⟩ := q
    simp only [dSet] at h
    split at h
    · rcases List.mem_cons.1 h with h | h
      · exact .inl h
      · exact .inr (List.mem_cons_of_mem _ h)
    · rcases List.mem_cons.1 h with h | h
      · exact .inr (by rw [h]; exact List.mem_cons_self)
      · rcases ih h with h | h
        · exact .inl h
        · exact .inr (List.mem_cons_of_mem _ h)

theorem optionsOk_nil : OptionsOk [] := ⟨by simp, by simp⟩

theorem optionsOk_set {d : Dict String Opt} {k : String} {o : Opt} (h : OptionsOk d) (hk : o.key = some k) : OptionsOk (dSet d k o) := by
  refine ⟨fun p hp => ?_, nodup_dSet h.2⟩
  rcases mem_dSet' hp with rfl | hp
  · exact hk
  · exact h.1 p hp

theorem val_aclOptions : Val (aclOptions e) OptionsOk := by
  unfold aclOptions
  refine Val.skip fun l => Val.pure ?_
  have : ∀ (l : List Opt) (d : Dict String Opt), OptionsOk d → OptionsOk (l.foldl (fun d o => match o.key with
      | some k => dSet d k o
      | Option.none => d) d) := by
    intro l
    induction l with
    | nil => exact fun d h => h
    | cons o l ih =>
      intro d h
      apply ih
      dsimp only
      split
      · rename_i k hk; exact optionsOk_set h hk
      · exact h
  exact this l [] optionsOk_nil

theorem val_lineEnd : Val (lineEnd e) OptionsOk := by
  unfold lineEnd
  refine Val.bind (Val.opt (p := (do ws; aclOptions e)) (Val.skip fun _ => val_aclOptions)) fun o ho => Val.skip fun _ => Val.skip fun _ => Val.pure ?_
  cases o with
  | none => exact optionsOk_nil
  | some d => exact ho d rfl

theorem row_ruleExtended : Val (ruleExtended e) RowOk := by
  unfold ruleExtended
  refine Val.alt ?_ ?_
  · exact Val.skip fun _ => Val.skip fun _ => Val.skip fun _ => Val.skip fun _ => Val.skip fun _ => Val.skip fun _ =>
      Val.skip fun _ => Val.skip fun _ => Val.skip fun _ => Val.skip fun _ =>
      Val.bind val_icmpOptions fun c hc => Val.bind val_lineEnd fun o ho => Val.pure ⟨trivial, trivial, hc, ho⟩
  · exact Val.skip fun _ => Val.skip fun _ => Val.skip fun _ => Val.skip fun _ => Val.skip fun _ => Val.skip fun _ =>
      Val.skip fun _ => Val.bind val_nodePort fun a ha => Val.skip fun _ => Val.bind val_nodePort fun b hb =>
      Val.bind val_lineEnd fun o ho => Val.pure ⟨ha, hb, trivial, ho⟩

theorem row_ruleStandard : Val (ruleStandard e) RowOk := by
  unfold ruleStandard
  exact Val.skip fun _ => Val.skip fun _ => Val.skip fun _ => Val.skip fun _ => Val.skip fun _ =>
      Val.skip fun _ => Val.skip fun _ => Val.skip fun _ => Val.pure ⟨trivial, trivial, trivial, optionsOk_nil⟩

theorem row_ruleWebtype : Val (ruleWebtype e) RowOk := by
  unfold ruleWebtype
  refine Val.alt ?_ ?_
  · exact Val.skip fun _ => Val.skip fun _ => Val.skip fun _ => Val.skip fun _ => Val.skip fun _ => Val.skip fun _ =>
      Val.skip fun _ => Val.skip fun _ => Val.bind val_lineEnd fun o ho => Val.pure ⟨trivial, trivial, trivial, ho⟩
  · exact Val.skip fun _ => Val.skip fun _ => Val.skip fun _ => Val.skip fun _ => Val.skip fun _ => Val.skip fun _ =>
      Val.skip fun _ => Val.bind val_nodePort fun b hb => Val.bind val_lineEnd fun o ho => Val.pure ⟨trivial, hb, trivial, ho⟩

theorem row_remarked {p : P (Option PRule)} (hp : Val p (fun o => ∀ r, o = some r → RowOk r)) :
    Val (remarked e p) (fun o => ∀ r, o = some r → RowOk r) := by
  unfold remarked
  refine Val.skip fun rs => Val.bind hp fun o ho => Val.pure ?_
  intro r hr
  cases o with
  | none => cases hr
  | some x =>
    cases hr
    exact ⟨(ho x rfl).src, (ho x rfl).dst, (ho x rfl).icmp, (ho x rfl).options⟩

theorem row_accessList : Val (accessList e) (fun o => ∀ r, o = some r → RowOk r) := by
  have some_ok : ∀ p : P PRule, Val p RowOk → Val (do let r ← p; pure (some r)) (fun o => ∀ r, o = some r → RowOk r) := by
    intro p hp
    exact Val.bind hp fun r hr => Val.pure (by intro x hx; cases hx; exact hr)
  have hx := some_ok _ (row_ruleExtended (e := e))
  have hs := some_ok _ (row_ruleStandard (e := e))
  have hw := some_ok _ (row_ruleWebtype (e := e))
  have ht : Val (do ruleEthertype e; pure none) (fun o : Option PRule => ∀ r, o = some r → RowOk r) :=
    Val.skip fun _ => Val.pure (by intro r h; cases h)
  unfold accessList
  exact Val.alts_cons (row_remarked hx) <| Val.alts_cons hx <| Val.alts_cons (row_remarked hs) <| Val.alts_cons hs <|
    Val.alts_cons (row_remarked hw) <| Val.alts_cons hw <| Val.alts_cons (row_remarked ht) <| Val.alts_cons ht Val.alts_nil

/-! ## whole texts -/

def RowItem : Item → Prop
  | .rule r => RowOk r
  | _ => True

def RowOut (x : Item × St) : Prop := RowItem x.1 ∧ True

theorem row_keep {p : P Item} (hp : Val p RowItem) : Val (keep s p) RowOut :=
  Val.bind hp fun _ hi => Val.pure ⟨hi, trivial⟩

theorem row_command : Val (command s) RowOut := by
  unfold command
  dsimp only
  refine Val.alts_cons (row_keep ?_) <| Val.alts_cons (row_keep ?_) <| Val.alts_cons (row_keep ?_) <|
    Val.alts_cons ?_ <| Val.alts_cons ?_ <| Val.alts_cons ?_ <|
    Val.alts_cons ?_ <| Val.alts_cons ?_ <| Val.alts_cons (row_keep ?_) <|
    Val.alts_cons (row_keep ?_) <| Val.alts_cons (row_keep ?_) <| Val.alts_cons (row_keep ?_) <|
    Val.alts_cons (row_keep ?_) <| Val.alts_cons (row_keep ?_) Val.alts_nil
  · exact Val.skip fun _ => Val.skip fun _ => Val.pure trivial
  · exact Val.skip fun _ => Val.skip fun _ => Val.skip fun _ => Val.skip fun _ => Val.pure trivial
  · exact Val.skip fun _ => Val.skip fun _ => Val.skip fun _ => Val.pure trivial
  · unfold interface
    exact Val.skip fun _ => Val.skip fun _ => Val.skip fun _ => Val.skip fun _ => Val.skip fun _ => Val.skip fun _ => Val.pure ⟨trivial, trivial⟩
  · unfold name
    exact Val.skip fun _ => Val.skip fun _ => Val.skip fun _ => Val.skip fun _ => Val.skip fun _ =>
      Val.skip fun _ => Val.skip fun _ => Val.pure ⟨trivial, trivial⟩
  · unfold timeRange
    exact Val.skip fun _ => Val.skip fun _ => Val.skip fun _ => Val.skip fun _ => Val.skip fun _ => Val.skip fun _ =>
      Val.pure ⟨trivial, trivial⟩
  · unfold object
    refine Val.skip fun _ => Val.skip fun _ => Val.alt ?_ ?_
    · unfold objectNetwork
      dsimp only
      exact Val.skip fun _ => Val.skip fun _ => Val.skip fun _ => Val.skip fun _ => Val.skip fun _ => Val.skip fun _ => Val.skip fun _ => Val.pure ⟨trivial, trivial⟩
    · unfold objectService
      dsimp only
      exact Val.skip fun _ => Val.skip fun _ => Val.skip fun _ => Val.skip fun _ => Val.skip fun _ => Val.skip fun _ => Val.pure ⟨trivial, trivial⟩
  · unfold objectGroup objectGroupType
    dsimp only
    refine Val.skip fun _ => Val.skip fun _ => Val.alts_cons ?_ <| Val.alts_cons ?_ <| Val.alts_cons ?_ <| Val.alts_cons ?_ <|
      Val.alts_cons ?_ Val.alts_nil
    · exact Val.skip fun _ => Val.skip fun ⟨n, d, l⟩ => Val.pure ⟨trivial, trivial⟩
    · exact Val.skip fun _ => Val.skip fun _ => Val.skip fun _ => Val.skip fun _ => Val.skip fun _ =>
        Val.skip fun _ => Val.skip fun _ => Val.skip fun _ => Val.skip fun _ => Val.skip fun _ => Val.pure ⟨trivial, trivial⟩
    · exact Val.skip fun _ => Val.skip fun ⟨n, d, l⟩ => Val.pure ⟨trivial, trivial⟩
    · exact Val.skip fun _ => Val.skip fun ⟨n, d, l⟩ => Val.pure ⟨trivial, trivial⟩
    · exact Val.skip fun _ => Val.skip fun ⟨n, d, l⟩ => Val.pure ⟨trivial, trivial⟩
  · refine Val.bind row_accessList fun r hr => Val.pure ?_
    cases r with
    | none => trivial
    | some r => exact hr r rfl
  · exact Val.skip fun _ => Val.pure trivial
  · unfold accessGroup
    refine Val.alt ?_ ?_
    · exact Val.skip fun _ => Val.skip fun _ => Val.skip fun _ => Val.skip fun _ => Val.skip fun _ => Val.skip fun _ => Val.skip fun _ => Val.skip fun _ => Val.skip fun _ => Val.skip fun _ => Val.skip fun _ =>
        Val.pure trivial
    · exact Val.skip fun _ => Val.skip fun _ => Val.skip fun _ => Val.skip fun _ => Val.skip fun _ => Val.skip fun _ => Val.skip fun _ =>
        Val.pure trivial
  · unfold nat
    refine Val.alt ?_ ?_
    · refine Val.skip fun _ => Val.skip fun _ => Val.skip fun _ => Val.skip fun _ => Val.skip fun _ => Val.skip fun src =>
        Val.skip fun dst => Val.skip fun _ => Val.skip fun _ => Val.skip fun _ => Val.skip fun _ => Val.skip fun n => Val.pure ?_
      cases n <;> trivial
    · exact Val.skip fun _ => Val.skip fun _ => Val.skip fun _ => Val.skip fun _ => Val.skip fun _ => Val.skip fun _ => Val.pure trivial
  · unfold ignored
    refine Val.alts ?_
    intro p hp
    obtain ⟨kt, -, rfl⟩ := List.mem_map.1 hp
    exact Val.skip fun _ => Val.skip fun _ => Val.pure trivial
  · exact Val.skip fun _ => Val.pure trivial

theorem parseFile_rows {t r : Text} {items : List Item} (h : parseFile g t = .ok items r) : ∀ i ∈ items, RowItem i := by
  unfold parseFile at h
  split at h
  · rename_i l s' hc
    split at h
    · cases h
    · cases h
      exact (commands_inv (S := fun _ => True) (I := RowItem) (fun s _ => row_command) _ _ _ _ _ _ rfl trivial hc).1
  · cases h
  · cases h
  · cases h

end Acltk.FwsmText
