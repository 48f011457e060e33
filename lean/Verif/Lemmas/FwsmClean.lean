import Verif.Lemmas.FwsmCmd
/-!
# The tables never contain a name with a line feed
-/
namespace Acltk.FwsmText
open Acltk Acltk.Lookup Acltk.Peg Acltk.AclText

variable {α β : Type} {g : Guard} {s : St}

/-- Whatever the rule returns satisfies `V`. -/
def Val (p : P α) (V : α → Prop) : Prop := ∀ t a r, p t = .ok a r → V a

theorem Val.bind {p : P α} {f : α → P β} {V : α → Prop} {W : β → Prop} (h : Val p V) (hf : ∀ a, V a → Val (f a) W) :
    Val (p >>= f) W := by
  intro t b r hb
  obtain ⟨a, s, h1, h2⟩ := bind_inv hb
  exact hf a (h _ _ _ h1) _ _ _ h2

theorem Val.skip {p : P α} {f : α → P β} {W : β → Prop} (hf : ∀ a, Val (f a) W) : Val (p >>= f) W :=
  Val.bind (V := fun _ => True) (fun _ _ _ _ => trivial) (fun a _ => hf a)

theorem Val.pure {a : α} {V : α → Prop} (h : V a) : Val (pure a : P α) V := by
  intro t b r hb
  cases hb
  exact h

theorem Val.alt {p q : P α} {V : α → Prop} (hp : Val p V) (hq : Val q V) : Val (alt p q) V := by
  intro t a r h
  rcases alt_inv h with h | h
  · exact hp _ _ _ h
  · exact hq _ _ _ h

theorem Val.alts_cons {p : P α} {l : List (P α)} {V : α → Prop} (hp : Val p V) (hl : Val (alts l) V) : Val (alts (p :: l)) V :=
  Val.alt hp hl

theorem Val.alts_nil {V : α → Prop} : Val (alts ([] : List (P α))) V := by
  intro t a r h; cases h

theorem Val.act {x : Py α} {V : α → Prop} (h : ∀ a, x = .ok a → V a) : Val (act x) V := by
  intro t a r hp
  obtain ⟨c, -, -, rfl⟩ := reads_act _ _ _ _ hp
  exact h a rfl

theorem Val.many {p : P α} {V : α → Prop} (h : Val p V) : Val (many p) (fun l => ∀ a ∈ l, V a) := by
  intro t
  generalize hn : t.length = n
  induction n using Nat.strongRecOn generalizing t with
  | _ n ih =>
    intro a r hm
    rw [Peg.many] at hm
    generalize hv : p t = v at hm
    cases v with
    | fail => cases hm; simp
    | raise e => cases hm
    | ok b s =>
      simp only at hm
      split at hm
      · rename_i hl
        generalize hw : Peg.many p s = w at hm
        cases w with
        | fail => cases hm
        | raise e => cases hm
        | ok l u =>
          cases hm
          intro x hx
          rcases List.mem_cons.1 hx with rfl | hx
          · exact h _ _ _ hv
          · exact ih s.length (by omega) s rfl _ _ hw x hx
      · cases hm; simp

/-- The value contains no line feed. -/
def NoNl (l : List Char) : Prop := '\n' ∉ l

theorem val_pat {e : Re} (he : e.Within (· ≠ '\n')) : Val (pat e) NoNl := by
  intro t a r h
  obtain ⟨c, -, rfl, hc⟩ := reads_pat he _ _ _ h
  exact fun hm => hc _ hm rfl

theorem val_identifier : Val identifier NoNl := val_pat (by
  simp only [Re.Within]
  constructor <;> (intro c h e; subst e; revert h; decide))

theorem val_stringP : Val stringP NoNl := val_pat (by
  simp only [Re.plus, Re.Within]
  constructor <;> (intro c h e; subst e; revert h; decide))

theorem val_objName : Val objName NoNl := val_pat (e := .star isNameChar) (by
  intro c h e; subst e; revert h; decide)

theorem mem_dSet {d : Dict String β} {k : String} {v : β} {p : String × β} (h : p ∈ dSet d k v) : p.1 = k ∨ p ∈ d := by
  induction d with
  | nil => simp [dSet] at h; exact Or.inl (by rw [h])
  | cons x d ih =>
    obtain ⟨k', v'⟩ := x
    simp only [dSet] at h
    split at h
    · rcases List.mem_cons.1 h with rfl | h
      · exact Or.inl rfl
      · exact Or.inr (List.mem_cons_of_mem _ h)
    · rcases List.mem_cons.1 h with rfl | h
      · exact Or.inr List.mem_cons_self
      · rcases ih h with h | h
        · exact Or.inl h
        · exact Or.inr (List.mem_cons_of_mem _ h)

theorem clean_dSet {d : Dict String β} {k : String} {v : β} (hd : ∀ p ∈ d, '\n' ∉ p.1.toList) (hk : '\n' ∉ k.toList) :
    ∀ p ∈ dSet d k v, '\n' ∉ p.1.toList := by
  intro p hp
  rcases mem_dSet hp with h | h
  · rw [h]; exact hk
  · exact hd p h

theorem NoNl.ofList {l : List Char} (h : NoNl l) : '\n' ∉ (String.ofList l).toList := by
  rw [String.toList_ofList]
  exact h

/-- The state behind a command has clean tables. -/
def CleanOut (x : Item × St) : Prop := x.2.Clean

theorem name_clean (hs : s.Clean) : Val (name s) CleanOut := by
  unfold name
  refine Val.skip fun _ => Val.skip fun _ => Val.skip fun _ => Val.skip fun _ => Val.bind val_identifier fun n hn => Val.skip fun _ =>
    Val.skip fun _ => Val.pure ?_
  exact ⟨{ hs.env with names := clean_dSet hs.env.names hn.ofList }, hs.ifaces⟩

theorem interfaceDetail_clean : Val (interfaceDetail g) (fun l => ∀ n, Ifc.nameifOf l = some n → '\n' ∉ n.toList) := by
  unfold interfaceDetail
  refine Val.alts_cons ?_ <| Val.alts_cons ?_ <| Val.alts_cons ?_ <| Val.alts_cons ?_ <| Val.alts_cons ?_ <| Val.alts_cons ?_ Val.alts_nil
  · exact Val.skip fun _ => Val.skip fun _ => Val.skip fun _ => Val.skip fun _ => Val.pure (by intro n h; cases h)
  · refine Val.skip fun _ => Val.skip fun _ => Val.bind val_identifier fun v hv => Val.skip fun _ => Val.skip fun _ => Val.pure ?_
    intro n h
    cases h
    exact hv.ofList
  · exact Val.skip fun _ => Val.skip fun _ => Val.skip fun _ => Val.skip fun _ => Val.skip fun _ => Val.skip fun _ => Val.skip fun _ =>
      Val.skip fun _ => Val.skip fun _ => Val.skip fun _ => Val.skip fun _ => Val.pure (by intro n h; cases h)
  · exact Val.skip fun _ => Val.skip fun _ => Val.skip fun _ => Val.skip fun _ => Val.skip fun _ => Val.skip fun _ => Val.skip fun _ =>
      Val.skip fun _ => Val.skip fun _ => Val.skip fun _ => Val.skip fun _ => Val.pure (by intro n h; cases h)
  · exact Val.skip fun _ => Val.skip fun _ => Val.skip fun _ => Val.pure (by intro n h; cases h)
  · exact Val.pure (by intro n h; cases h)

theorem interface_clean (hs : s.Clean) : Val (interface s) CleanOut := by
  unfold interface
  refine Val.skip fun _ => Val.skip fun _ => Val.bind val_stringP fun a ha => Val.skip fun _ =>
    Val.bind (Val.many (p := (do sp; interfaceDetail s.env.guard)) (Val.skip fun _ => interfaceDetail_clean)) fun l hl =>
    Val.bind (Val.act fun i hi => hi) fun i hi => Val.pure ?_
  obtain ⟨h1, h2, -⟩ := Ifc.C56_interface_attributes _ _ _ hi
  have hbase : ∀ p ∈ dSet s.ifaces i.alias i, '\n' ∉ p.1.toList := clean_dSet hs.ifaces (by rw [h1]; exact ha.ofList)
  refine ⟨hs.env, ?_⟩
  simp only
  cases hn : i.nameif with
  | none => exact hbase
  | some n =>
    refine clean_dSet hbase ?_
    rw [hn] at h2
    have hm := List.mem_of_getLast? h2.symm
    obtain ⟨x, hx, hxn⟩ := List.mem_filterMap.1 hm
    exact hl x hx n hxn

theorem timeRange_clean (hs : s.Clean) : Val (timeRange s) CleanOut := by
  unfold timeRange
  refine Val.skip fun _ => Val.skip fun _ => Val.bind val_stringP fun n hn => Val.skip fun _ =>
    Val.skip fun _ => Val.skip fun _ => Val.pure ?_
  exact ⟨{ hs.env with timeRanges := clean_dSet hs.env.timeRanges hn.ofList }, hs.ifaces⟩

theorem object_clean (hs : s.Clean) : Val (object s) CleanOut := by
  unfold object
  refine Val.skip fun _ => Val.skip fun _ => Val.alt ?_ ?_
  · unfold objectNetwork
    dsimp only
    refine Val.skip fun _ => Val.skip fun _ => Val.bind val_objName fun n hn => Val.skip fun _ => Val.skip fun _ => Val.skip fun _ =>
      Val.skip fun _ => Val.pure ?_
    refine ⟨?_, hs.ifaces⟩
    simp only
    split
    · exact hs.env
    · exact { hs.env with netObjs := clean_dSet hs.env.netObjs hn.ofList }
  · unfold objectService
    dsimp only
    refine Val.skip fun _ => Val.skip fun _ => Val.bind val_objName fun n hn => Val.skip fun _ => Val.skip fun _ => Val.skip fun _ =>
      Val.pure ?_
    refine ⟨?_, hs.ifaces⟩
    simp only
    split
    · exact hs.env
    · exact { hs.env with svcObjs := clean_dSet hs.env.svcObjs hn.ofList }

theorem groupBody_clean {m : P α} : Val (groupBody g m) (fun x => '\n' ∉ x.1.toList) := by
  unfold groupBody
  exact Val.skip fun _ => Val.bind val_objName fun n hn => Val.skip fun _ => Val.skip fun _ => Val.skip fun _ => Val.skip fun _ =>
    Val.pure hn.ofList

theorem objectGroup_clean (hs : s.Clean) : Val (objectGroup s) CleanOut := by
  unfold objectGroup objectGroupType
  dsimp only
  refine Val.skip fun _ => Val.skip fun _ => Val.alts_cons ?_ <| Val.alts_cons ?_ <| Val.alts_cons ?_ <| Val.alts_cons ?_ <|
    Val.alts_cons ?_ Val.alts_nil
  · refine Val.skip fun _ => Val.bind groupBody_clean fun ⟨n, d, l⟩ hn => Val.pure ?_
    exact ⟨{ hs.env with netGroups := clean_dSet hs.env.netGroups hn }, hs.ifaces⟩
  · refine Val.skip fun _ => Val.skip fun _ => Val.bind val_objName fun n hn => Val.skip fun _ => Val.skip fun _ => Val.skip fun _ =>
      Val.skip fun _ => Val.skip fun _ => Val.skip fun _ => Val.skip fun _ => Val.pure ?_
    exact ⟨{ hs.env with portGroups := clean_dSet hs.env.portGroups hn.ofList }, hs.ifaces⟩
  · refine Val.skip fun _ => Val.bind groupBody_clean fun ⟨n, d, l⟩ hn => Val.pure ?_
    exact ⟨{ hs.env with svcGroups := clean_dSet hs.env.svcGroups hn }, hs.ifaces⟩
  · refine Val.skip fun _ => Val.bind groupBody_clean fun ⟨n, d, l⟩ hn => Val.pure ?_
    exact ⟨{ hs.env with icmpGroups := clean_dSet hs.env.icmpGroups hn }, hs.ifaces⟩
  · refine Val.skip fun _ => Val.bind groupBody_clean fun ⟨n, d, l⟩ hn => Val.pure ?_
    exact ⟨{ hs.env with protoGroups := clean_dSet hs.env.protoGroups hn }, hs.ifaces⟩

theorem keep_clean {p : P Item} (hs : s.Clean) : Val (keep s p) CleanOut := Val.skip fun _ => Val.pure hs

theorem command_clean (hs : s.Clean) : Val (command s) CleanOut := by
  unfold command
  dsimp only
  exact Val.alts_cons (keep_clean hs) <| Val.alts_cons (keep_clean hs) <| Val.alts_cons (keep_clean hs) <|
    Val.alts_cons (interface_clean hs) <| Val.alts_cons (name_clean hs) <| Val.alts_cons (timeRange_clean hs) <|
    Val.alts_cons (object_clean hs) <| Val.alts_cons (objectGroup_clean hs) <| Val.alts_cons (keep_clean hs) <|
    Val.alts_cons (keep_clean hs) <| Val.alts_cons (keep_clean hs) <| Val.alts_cons (keep_clean hs) <|
    Val.alts_cons (keep_clean hs) <| Val.alts_cons (keep_clean hs) Val.alts_nil

end Acltk.FwsmText
