import Verif.Props.PfSep
/-!
# C49, C58, C59: pfSense interfaces
-/
namespace Acltk.Pf
open Acltk Acltk.Ifc

theorem dGet_childVals_none {e : Elem} {k : String} (h : lastChild e k = none) : dGet (childVals e) k = none := by
  rw [childVals_get, h]; rfl

theorem dGet_childVals_some {e c : Elem} {k : String} (h : lastChild e k = some c) :
    dGet (childVals e) k = some c.text := by
  rw [childVals_get, h]; rfl

/-- **C49 is violated** for every interface with a static address: the interface is rejected. -/
theorem C49_violated {T : Type} (v : Env T) (t : Tables) (e c : Elem)
    (hc : lastChild e "ipaddr" = some c) (hs : c.text ≠ some "dhcp") :
    ∃ err, parseIface v t e = .error err := by
  cases h : parseIface v t e with
  | error err => exact ⟨err, rfl⟩
  | ok r =>
    exfalso
    unfold parseIface at h
    rw [bind_ok] at h
    obtain ⟨⟨alias, details⟩, h1, h2⟩ := h
    unfold ifaceDetails at h1
    simp only [bind_ok] at h1
    obtain ⟨first, h3, h4⟩ := h1
    rw [dGet_childVals_some hc] at h3
    simp only [hs, if_false, bind_ok] at h3
    obtain ⟨s, -, h5⟩ := h3
    cases h5
    have hd : ∃ x, details = [some (Ty.list [some "ip", some "address"], Val.list [c.text, s]), x] := by
      split at h4 <;> rw [bind_ok] at h4 <;> obtain ⟨y, -, h6⟩ := h4 <;> cases h6 <;> exact ⟨_, rfl⟩
    obtain ⟨x, rfl⟩ := hd
    rw [bind_ok] at h2
    obtain ⟨o, h6, -⟩ := h2
    simp [mkInterface, detailLoop, detailStep, index] at h6

/-- The tag of an optional interface: it begins with `opt`. -/
def OptTag (tag : String) : Prop := ∃ r : List Char, tag.toList = 'o' :: 'p' :: 't' :: r

theorem isOpt_iff {tag : String} : isOpt tag = true ↔ OptTag tag := by
  unfold isOpt OptTag
  rw [List.isPrefixOf_iff_prefix]
  constructor
  · rintro ⟨r, h⟩; exact ⟨r, h.symm⟩
  · rintro ⟨r, h⟩; exact ⟨r, h.symm⟩

/-- What an interface element without a static address says. -/
inductive IfaceMeans {T : Type} (v : Env T) (e : Elem) : Intf → Prop
  | opt (ci : Elem) (d : String) : OptTag e.tag → lastChild e "if" = some ci →
      ((lastChild e "descr").map Elem.text).getD (some e.tag) = some d →
      IfaceMeans v e { alias := v.unesc d, nameif := ci.text, description := some e.tag }
  | std (ci : Elem) (d : String) : ¬ OptTag e.tag → lastChild e "if" = some ci →
      ((lastChild e "descr").map Elem.text).getD (some "") = some d →
      IfaceMeans v e { alias := e.tag, nameif := ci.text, description := some (v.unesc d) }

/-- The tables after one interface. -/
def Tables.addIface (t : Tables) (o : Intf) : Tables :=
  { t with
    ifaces := dSet t.ifaces o.alias o
    ifmap := match o.description with
      | some k => dSet t.ifmap k o.alias
      | none => t.ifmap }

theorem unescape_ok {T : Type} {v : Env T} {x : Option String} {s : String} :
    v.unescape x = .ok s ↔ ∃ d, x = some d ∧ s = v.unesc d := by
  cases x with
  | none => simp [Env.unescape]
  | some d => simp [Env.unescape, eq_comm]

theorem mkInterface_two {alias d : String} {n : Option String} :
    mkInterface alias [n.map (fun n => (Ty.str "nameif", Val.str n)), some (Ty.str "description", Val.str d)] =
      .ok { alias := alias, nameif := n, description := some d } := by
  cases n <;> simp [mkInterface, detailLoop, detailStep]

/-- **C49, the part that holds**: an interface without a static address is accepted iff it has an `if`
child and no empty `descr` child; it has the name and description of the element and no address. -/
theorem C49_dynamic_partial {T : Type} (v : Env T) (t t' : Tables) (e : Elem) (o : Intf)
    (hs : ∀ c, lastChild e "ipaddr" = some c → c.text = some "dhcp") :
    parseIface v t e = .ok (t', o) ↔ IfaceMeans v e o ∧ t' = t.addIface o := by
  have hfirst : ∀ first : Detail,
      ((match dGet (childVals e) "ipaddr" with
        | some a =>
          if a = some "dhcp" then do
            let n ← need (childVals e) "if"
            .ok (n.map (fun n => (Ty.str "nameif", Val.str n)))
          else do
            let s ← need (childVals e) "subnet"
            .ok (some (Ty.list [some "ip", some "address"], Val.list [a, s]))
        | none => do
            let n ← need (childVals e) "if"
            .ok (n.map (fun n => (Ty.str "nameif", Val.str n))) : Py Detail) = .ok first) ↔
      ∃ ci, lastChild e "if" = some ci ∧ first = ci.text.map (fun n => (Ty.str "nameif", Val.str n)) := by
    intro first
    cases hc : lastChild e "ipaddr" with
    | none =>
      rw [dGet_childVals_none hc]
      simp only [bind_ok, need_ok, Except.ok.injEq]
      constructor
      · rintro ⟨n, ⟨ci, h1, rfl⟩, h2⟩; exact ⟨ci, h1, h2.symm⟩
      · rintro ⟨ci, h1, h2⟩; exact ⟨_, ⟨ci, h1, rfl⟩, h2.symm⟩
    | some c =>
      rw [dGet_childVals_some hc]
      simp only [hs c hc, if_true, bind_ok, need_ok, Except.ok.injEq]
      constructor
      · rintro ⟨n, ⟨ci, h1, rfl⟩, h2⟩; exact ⟨ci, h1, h2.symm⟩
      · rintro ⟨ci, h1, h2⟩; exact ⟨_, ⟨ci, h1, rfl⟩, h2.symm⟩
  unfold parseIface ifaceDetails
  simp only [bind_ok]
  constructor
  · rintro ⟨⟨alias, details⟩, ⟨first, h1, h2⟩, o', h3, h4⟩
    obtain ⟨ci, hci, rfl⟩ := (hfirst first).1 h1
    split at h2
    · rename_i ho
      rw [bind_ok] at h2
      obtain ⟨a, h5, h6⟩ := h2
      rw [childVals_get, unescape_ok] at h5
      obtain ⟨d, h7, rfl⟩ := h5
      cases h6
      rw [mkInterface_two] at h3
      cases h3
      cases h4
      exact ⟨.opt ci d (isOpt_iff.1 ho) hci h7, rfl⟩
    · rename_i ho
      rw [bind_ok] at h2
      obtain ⟨a, h5, h6⟩ := h2
      rw [childVals_get, unescape_ok] at h5
      obtain ⟨d, h7, rfl⟩ := h5
      cases h6
      rw [mkInterface_two] at h3
      cases h3
      cases h4
      exact ⟨.std ci d (fun h => ho (isOpt_iff.2 h)) hci h7, rfl⟩
  · rintro ⟨hm, rfl⟩
    cases hm with
    | opt ci d ho hci hd =>
      refine ⟨(v.unesc d, [ci.text.map (fun n => (Ty.str "nameif", Val.str n)),
        some (Ty.str "description", Val.str e.tag)]), ⟨_, (hfirst _).2 ⟨ci, hci, rfl⟩, ?_⟩, _, mkInterface_two, rfl⟩
      rw [if_pos (isOpt_iff.2 ho), bind_ok]
      exact ⟨v.unesc d, by rw [childVals_get, unescape_ok]; exact ⟨d, hd, rfl⟩, rfl⟩
    | std ci d ho hci hd =>
      refine ⟨(e.tag, [ci.text.map (fun n => (Ty.str "nameif", Val.str n)),
        some (Ty.str "description", Val.str (v.unesc d))]), ⟨_, (hfirst _).2 ⟨ci, hci, rfl⟩, ?_⟩, _, mkInterface_two, rfl⟩
      rw [if_neg (fun h => ho (isOpt_iff.1 h)), bind_ok]
      exact ⟨v.unesc d, by rw [childVals_get, unescape_ok]; exact ⟨d, hd, rfl⟩, rfl⟩

theorem parseIface_means {T : Type} {v : Env T} {t t' : Tables} {e : Elem} {o : Intf}
    (h : parseIface v t e = .ok (t', o)) : IfaceMeans v e o ∧ t' = t.addIface o := by
  refine (C49_dynamic_partial v t t' e o ?_).1 h
  intro c hc
  apply Classical.byContradiction
  intro hne
  obtain ⟨err, he⟩ := C49_violated v t e c hc hne
  rw [h] at he
  cases he

/-- All interfaces, in order. -/
theorem parseIfaces_means {T : Type} {v : Env T} {l : List Elem} : ∀ {t t' : Tables} {os : List Intf},
    parseIfaces v t l = .ok (t', os) →
    All2 (IfaceMeans v) l os ∧ t' = os.foldl Tables.addIface t := by
  induction l with
  | nil => intro t t' os h; cases h; exact ⟨.nil, rfl⟩
  | cons e es ih =>
    intro t t' os h
    simp only [parseIfaces, bind_ok] at h
    obtain ⟨⟨t1, o⟩, h1, ⟨t2, os'⟩, h2, h3⟩ := h
    cases h3
    obtain ⟨g1, rfl⟩ := parseIface_means h1
    obtain ⟨g2, rfl⟩ := ih h2
    exact ⟨.cons g1 g2, rfl⟩

theorem IfaceMeans.description_some {T : Type} {v : Env T} {e : Elem} {o : Intf} (h : IfaceMeans v e o) :
    ∃ k, o.description = some k := by
  cases h <;> exact ⟨_, rfl⟩

theorem addIfaces_ifaces (os : List Intf) : ∀ (t : Tables) (k : String),
    dGet (os.foldl Tables.addIface t).ifaces k =
      ((os.filter (fun o => o.alias == k)).getLast?.or (dGet t.ifaces k)) := by
  induction os using snocInd with
  | nil => intro t k; simp
  | snoc os o ih =>
    intro t k
    rw [List.foldl_append, List.filter_append]
    simp only [List.foldl_cons, List.foldl_nil, Tables.addIface, dGet_dSet]
    by_cases h : o.alias = k
    · simp [h]
    · have := ih t k
      simp only [Ne.symm h, if_false, List.filter_cons, beq_iff_eq, h, List.filter_nil, List.append_nil]
      exact this

theorem addIfaces_ifmap (os : List Intf) : ∀ (t : Tables) (k : String),
    dGet (os.foldl Tables.addIface t).ifmap k =
      (((os.filter (fun o => o.description == some k)).getLast?.map (·.alias)).or (dGet t.ifmap k)) := by
  induction os using snocInd with
  | nil => intro t k; simp
  | snoc os o ih =>
    intro t k
    rw [List.foldl_append, List.filter_append]
    simp only [List.foldl_cons, List.foldl_nil]
    have hi := ih t k
    cases hd : o.description with
    | none =>
      have : List.filter (fun o => o.description == some k) [o] = [] := by simp [hd]
      rw [this, List.append_nil, ← hi]
      simp [Tables.addIface, hd]
    | some d =>
      simp only [Tables.addIface, hd, dGet_dSet]
      by_cases h : k = d
      · simp [h, hd]
      · have : List.filter (fun o => o.description == some k) [o] = [] := by simp [hd, Ne.symm h]
        rw [this, List.append_nil, ← hi]
        simp [h]

/-! ## C58: rules that name the network of an interface -/

/-- A rule may name the network of each interface of the configuration by its tag. -/
def NetworksUsable {T : Type} (v : Env T) (l : List Elem) : Prop :=
  ∀ t os, parseIfaces v {} l = .ok (t, os) → ∀ e ∈ l,
    ∃ h, networkChild t (some e.tag) = .ok h

/-- An optional interface with a description. -/
def dmz : Elem := .mk "opt1" none [leaf "if" (some "em2"), leaf "descr" (some "DMZ")]

/-- **C58 is violated** by an optional interface with a description: the name is not found and the
rule is rejected. -/
theorem C58_violated : ¬ NetworksUsable sampleEnv [dmz] := by
  intro h
  obtain ⟨x, hx⟩ := h _ _ rfl dmz (by simp)
  revert hx
  have : networkChild (({} : Tables).addIface { alias := "DMZ", nameif := some "em2", description := some "opt1" })
      (some dmz.tag) = .error .value := rfl
  intro hx
  exact absurd (this.symm.trans hx) (by simp)

/-- **C58, the part that holds**: a name is found iff it is the alias of an interface, and then it is
that interface; the fixed interfaces (`wan`, `lan`) are found by their tag. -/
theorem C58_networks_partial {T : Type} (v : Env T) (l : List Elem) (t : Tables) (os : List Intf)
    (h : parseIfaces v {} l = .ok (t, os)) :
    (∀ s x, networkChild t (some s) = .ok x ↔ x = .iface s ∧ ∃ o ∈ os, o.alias = s) ∧
    (∀ e ∈ l, ¬ OptTag e.tag → networkChild t (some e.tag) = .ok (.iface e.tag)) := by
  obtain ⟨hm, rfl⟩ := parseIfaces_means h
  have key : ∀ s x, networkChild (os.foldl Tables.addIface {}) (some s) = .ok x ↔
      x = .iface s ∧ ∃ o ∈ os, o.alias = s := by
    intro s x
    unfold networkChild
    simp only [addIfaces_ifaces, dGet, Option.or_none]
    cases hl : (os.filter (fun o => o.alias == s)).getLast? with
    | none =>
      rw [List.getLast?_eq_none_iff, List.filter_eq_nil_iff] at hl
      simp only [reduceCtorEq, false_iff, not_and, not_exists]
      rintro - o ho rfl
      exact hl o ho (by simp)
    | some o =>
      have ho := List.mem_filter.1 (List.mem_of_getLast? hl)
      simp only [beq_iff_eq] at ho
      simp only [Except.ok.injEq, ho.2]
      constructor
      · rintro rfl; exact ⟨rfl, o, ho⟩
      · rintro ⟨rfl, -⟩; rfl
  refine ⟨key, ?_⟩
  intro e he ho
  rw [key]
  refine ⟨rfl, ?_⟩
  clear h key
  induction hm with
  | nil => cases he
  | cons h1 h2 ih =>
    rcases List.mem_cons.1 he with rfl | he
    · refine ⟨_, List.mem_cons_self, ?_⟩
      cases h1 with
      | opt ci d ho' => exact absurd ho' ho
      | std => rfl
    · obtain ⟨o, h3, h4⟩ := ih he
      exact ⟨o, List.mem_cons_of_mem _ h3, h4⟩

/-! ## C59: the list a rule belongs to -/

/-- A rule of an interface (given by its tag) belongs to the list named by the alias of that
interface. -/
def RulesKeepInterface {T : Type} (v : Env T) (l : List Elem) : Prop :=
  ∀ t os, parseIfaces v {} l = .ok (t, os) → ∀ (k : Nat) (e : Elem) (o : Intf), l[k]? = some e → os[k]? = some o →
    t.mapped e.tag = o.alias

/-- **C59 is violated** when an interface is described by the tag of another one: the rules of `lan`
go to the list `wan`. -/
theorem C59_violated : ¬ RulesKeepInterface sampleEnv
    [.mk "wan" none [leaf "if" (some "em0"), leaf "descr" (some "lan")],
     .mk "lan" none [leaf "if" (some "em1"), leaf "descr" (some "office")]] := by
  intro h
  have := h _ _ rfl 1 _ _ rfl rfl
  revert this
  decide +kernel

theorem forall₂_get {α β : Type} {R : α → β → Prop} {l : List α} {m : List β} (h : All2 R l m) :
    ∀ {k : Nat} {x : α} {y : β}, l[k]? = some x → m[k]? = some y → R x y := by
  induction h with
  | nil => intro k x y hx; simp at hx
  | cons h1 h2 ih =>
    intro k x y hx hy
    cases k with
    | zero => simp at hx hy; subst hx hy; exact h1
    | succ k => exact ih (by simpa using hx) (by simpa using hy)

theorem forall₂_mem_right {α β : Type} {R : α → β → Prop} {l : List α} {m : List β} (h : All2 R l m) :
    ∀ y ∈ m, ∃ (k : Nat) (x : α), l[k]? = some x ∧ m[k]? = some y ∧ R x y := by
  induction h with
  | nil => intro y hy; cases hy
  | cons h1 h2 ih =>
    intro y hy
    rcases List.mem_cons.1 hy with rfl | hy
    · exact ⟨0, _, rfl, rfl, h1⟩
    · obtain ⟨k, x, h3, h4, h5⟩ := ih y hy
      exact ⟨k + 1, x, by simpa using h3, by simpa using h4, h5⟩

/-- **C59, the part that holds**: if no two interface elements have the same tag and no fixed
interface is described by a tag that is in use, every rule stays with its interface. -/
theorem C59_interfaces_partial {T : Type} (v : Env T) (l : List Elem)
    (hnd : (l.map Elem.tag).Nodup)
    (hdesc : ∀ e ∈ l, ¬ OptTag e.tag → ∀ d,
      ((lastChild e "descr").map Elem.text).getD (some "") = some d → ∀ e' ∈ l, v.unesc d ≠ e'.tag) :
    RulesKeepInterface v l := by
  intro t os h k e o hk ho
  obtain ⟨hm, rfl⟩ := parseIfaces_means h
  unfold Tables.mapped
  rw [addIfaces_ifmap]
  have hdg : dGet ({} : Tables).ifmap e.tag = none := rfl
  rw [hdg, Option.or_none]
  have hme := forall₂_get hm hk ho
  have hel : e ∈ l := List.mem_of_getElem? hk
  -- an interface described by the tag of e is e itself
  have huniq : ∀ o' ∈ os, o'.description = some e.tag → OptTag e.tag ∧ o'.alias = o.alias := by
    intro o' ho' hd
    obtain ⟨k', e', h1, h2, h3⟩ := forall₂_mem_right hm o' ho'
    cases h3 with
    | opt ci d hopt hci hdd =>
      simp only [Option.some.injEq] at hd
      have hkk : k' = k := by
        have e1 : (l.map Elem.tag)[k']? = some e.tag := by simp [h1, hd]
        have e2 : (l.map Elem.tag)[k]? = some e.tag := by simp [hk]
        have l1 : k' < (l.map Elem.tag).length := by
          rcases Nat.lt_or_ge k' (l.map Elem.tag).length with h | h
          · exact h
          · rw [List.getElem?_eq_none h] at e1; cases e1
        have l2 : k < (l.map Elem.tag).length := by
          rcases Nat.lt_or_ge k (l.map Elem.tag).length with h | h
          · exact h
          · rw [List.getElem?_eq_none h] at e2; cases e2
        rw [List.getElem?_eq_getElem l1] at e1
        rw [List.getElem?_eq_getElem l2] at e2
        have he : (l.map Elem.tag)[k'] = (l.map Elem.tag)[k] := by
          rw [Option.some.inj e1, Option.some.inj e2]
        have hp := List.pairwise_iff_getElem.1 hnd
        rcases Nat.lt_trichotomy k' k with h | h | h
        · exact absurd he (hp k' k l1 l2 h)
        · exact h
        · exact absurd he.symm (hp k k' l2 l1 h)
      subst hkk
      rw [ho] at h2
      cases h2
      rw [hd] at hopt
      exact ⟨hopt, rfl⟩
    | std ci d hopt hci hdd =>
      simp only [Option.some.injEq] at hd
      exact absurd hd (hdesc e' (List.mem_of_getElem? h1) hopt d hdd e hel)
  cases hl : (os.filter (fun o => o.description == some e.tag)).getLast? with
  | some o' =>
    have := List.mem_filter.1 (List.mem_of_getLast? hl)
    exact (huniq o' this.1 (by simpa using this.2)).2
  | none =>
    rw [List.getLast?_eq_none_iff, List.filter_eq_nil_iff] at hl
    cases hme with
    | opt ci d hopt hci hdd => exact absurd (by simp) (hl _ (List.mem_of_getElem? ho))
    | std => rfl

/-- The hypotheses are met by a usual set of interfaces, which is accepted. -/
theorem C59_sample :
    let l := [Elem.mk "wan" none [leaf "if" (some "em0"), leaf "ipaddr" (some "dhcp"), leaf "descr" (some "WAN")], dmz]
    (l.map Elem.tag).Nodup ∧ (∃ r, parseIfaces sampleEnv {} l = .ok r) ∧
    (∀ e ∈ l, ¬ OptTag e.tag → ∀ d,
      ((lastChild e "descr").map Elem.text).getD (some "") = some d → ∀ e' ∈ l, sampleEnv.unesc d ≠ e'.tag) := by
  refine ⟨by decide +kernel, ⟨_, rfl⟩, ?_⟩
  intro e he ho d hd e' he'
  simp only [List.mem_cons, List.not_mem_nil, or_false] at he he'
  rcases he with rfl | rfl
  · have : d = "WAN" := by simpa [lastChild, leaf, Elem.tag, Elem.children, Elem.text] using hd.symm
    subst this
    rcases he' with rfl | rfl <;> decide +kernel
  · exact absurd (isOpt_iff.1 (by decide +kernel)) ho

end Acltk.Pf
