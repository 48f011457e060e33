import Verif.Lemmas.IosLineRule
import Verif.Props.FwsmLines
/-!
# C91: no access-list rule of an IOS configuration is lost or invented
-/
namespace Acltk.IosLines
open Acltk Acltk.Lookup Acltk.Peg Acltk.AclText Acltk.IosText
open Acltk.FwsmText (St Em Val val_objName val_stringP clean_dSet NoNl)

variable {α β : Type} {g : Guard} {s : St}

/-! ## the tables stay clean -/

/-- The state behind a command has clean tables. -/
def CleanOut (x : Item × St) : Prop := x.2.Clean

theorem interfaceDetail_noName : Val (interfaceDetail g) (fun l => Ifc.nameifOf l = none) := by
  unfold interfaceDetail
  repeat' first
    | exact Val.pure rfl | with_reducible exact Val.alts_nil | with_reducible apply Val.alts_cons
    | with_reducible apply Val.skip | apply Val.skip | intro _

theorem interface_clean (hs : s.Clean) : Val (interface s) CleanOut := by
  unfold interface
  refine Val.skip fun _ => Val.skip fun _ => Val.bind val_stringP fun a ha => Val.skip fun _ =>
    Val.bind (Val.many (p := (do sp; interfaceDetail s.env.guard)) (Val.skip fun _ => interfaceDetail_noName)) fun l hl =>
    Val.bind (Val.act fun i hi => hi) fun i hi => Val.pure ?_
  obtain ⟨h1, h2, -⟩ := Ifc.C56_interface_attributes _ _ _ hi
  have hbase : ∀ p ∈ dSet s.ifaces i.alias i, '\n' ∉ p.1.toList := clean_dSet hs.ifaces (by rw [h1]; exact ha.ofList)
  refine ⟨hs.env, ?_⟩
  simp only
  cases hn : i.nameif with
  | none => exact hbase
  | some n =>
    rw [hn] at h2
    have hm := List.mem_of_getLast? h2.symm
    obtain ⟨x, hx, hxn⟩ := List.mem_filterMap.1 hm
    rw [hl x hx] at hxn
    cases hxn

theorem objectGroup_clean (hs : s.Clean) : Val (objectGroup s) CleanOut := by
  unfold objectGroup objectGroupType
  dsimp only
  refine Val.skip fun _ => Val.skip fun _ => Val.bind (V := fun x => x.2.Clean) ?_ (fun x hx => Val.pure hx)
  refine Val.alts_cons ?_ <| Val.alts_cons ?_ <| Val.alts_cons ?_ <| Val.alts_cons ?_ <|
    Val.alts_cons ?_ Val.alts_nil
  · refine Val.skip fun _ => Val.bind FwsmText.groupBody_clean fun ⟨n, d, l⟩ hn => Val.pure ?_
    exact ⟨{ hs.env with netGroups := clean_dSet hs.env.netGroups hn }, hs.ifaces⟩
  · refine Val.skip fun _ => Val.skip fun _ => Val.bind val_objName fun n hn => Val.skip fun _ => Val.skip fun _ => Val.skip fun _ =>
      Val.skip fun _ => Val.skip fun _ => Val.skip fun _ => Val.skip fun _ => Val.pure ?_
    exact ⟨{ hs.env with portGroups := clean_dSet hs.env.portGroups hn.ofList }, hs.ifaces⟩
  · refine Val.skip fun _ => Val.bind FwsmText.groupBody_clean fun ⟨n, d, l⟩ hn => Val.pure ?_
    exact ⟨{ hs.env with svcGroups := clean_dSet hs.env.svcGroups hn }, hs.ifaces⟩
  · refine Val.skip fun _ => Val.bind FwsmText.groupBody_clean fun ⟨n, d, l⟩ hn => Val.pure ?_
    exact ⟨{ hs.env with icmpGroups := clean_dSet hs.env.icmpGroups hn }, hs.ifaces⟩
  · refine Val.skip fun _ => Val.bind FwsmText.groupBody_clean fun ⟨n, d, l⟩ hn => Val.pure ?_
    exact ⟨{ hs.env with protoGroups := clean_dSet hs.env.protoGroups hn }, hs.ifaces⟩

theorem keep_clean {p : P Item} (hs : s.Clean) : Val (keep s p) CleanOut := Val.skip fun _ => Val.pure hs

theorem command_clean (hs : s.Clean) : Val (command s) CleanOut := by
  unfold command
  exact Val.alts_cons (keep_clean hs) <| Val.alts_cons (keep_clean hs) <| Val.alts_cons (keep_clean hs) <|
    Val.alts_cons (interface_clean hs) <| Val.alts_cons (objectGroup_clean hs) <| Val.alts_cons (keep_clean hs) <|
    Val.alts_cons (keep_clean hs) <| Val.alts_cons (keep_clean hs) <| Val.alts_cons (keep_clean hs) Val.alts_nil

/-- No command changes the guard. -/
def SameGuard (s : St) (x : Item × St) : Prop := x.2.env.guard = s.env.guard

theorem command_guard : Val (command s) (SameGuard s) := by
  have keepG : ∀ {p : P Item}, Val (keep s p) (SameGuard s) := Val.skip fun _ => Val.pure rfl
  have hi : Val (interface s) (SameGuard s) := by
    unfold interface
    refine Val.skip fun _ => Val.skip fun _ => Val.skip fun _ => Val.skip fun _ => Val.skip fun _ => Val.skip fun i => Val.pure ?_
    cases i.nameif <;> rfl
  have ho : Val (objectGroup s) (SameGuard s) := by
    unfold objectGroup objectGroupType
    dsimp only
    refine Val.skip fun _ => Val.skip fun _ => Val.bind (V := fun x : FwsmText.Item × St => x.2.env.guard = s.env.guard) ?_ (fun x hx => Val.pure hx)
    repeat' first
      | exact Val.pure rfl | with_reducible exact Val.alts_nil | with_reducible apply Val.alts_cons
      | with_reducible apply Val.skip | apply Val.skip | intro _
  unfold command
  exact Val.alts_cons keepG <| Val.alts_cons keepG <| Val.alts_cons keepG <| Val.alts_cons hi <| Val.alts_cons ho <|
    Val.alts_cons keepG <| Val.alts_cons keepG <| Val.alts_cons keepG <| Val.alts_cons keepG Val.alts_nil

/-! ## what one command contributes -/

/-- The rules of an item, by list and action. -/
def itemHeads : Item → List (String × String)
  | .rule r => [(r.id, r.mode)]
  | .rules l => heads l
  | _ => []

/-- From a position between commands, the command passes exactly the rule lines whose rules it returns. -/
def Step (p : P Item) : Prop :=
  ∀ cur pre t i r, '\n' ∉ pre → Plain pre t → SE cur pre t → p t = .ok i r →
    ∃ c cur' pre', t = c ++ r ∧ Moves cur pre c cur' pre' (itemHeads i) ∧ SE cur' pre' r

theorem Step.quiet {p : P Item} (hT : T SE p SE) (hv : Val p (fun i => itemHeads i = [])) : Step p := by
  intro cur pre t i r hn hP hE h
  obtain ⟨c, cur', pre', h1, h2, h3⟩ := hT _ _ _ _ _ hn hP hE h
  exact ⟨c, cur', pre', h1, by rw [hv _ _ _ h]; exact h2, h3⟩

theorem Step.alt {p q : P Item} (hp : Step p) (hq : Step q) : Step (alt p q) := by
  intro cur pre t i r hn hP hE h
  rcases alt_inv h with h | h
  · exact hp _ _ _ _ _ hn hP hE h
  · exact hq _ _ _ _ _ hn hP hE h

macro "norules" : tactic => `(tactic| repeat' first
  | exact Val.pure rfl | with_reducible exact Val.alts_nil | with_reducible apply Val.alt | with_reducible apply Val.alts_cons
  | with_reducible apply Val.skip | apply Val.skip | intro _)

theorem base_step {p : P FwsmText.Item} {B : As} (h : T SX p B) (hB : ∀ c p t, B c p t → SE c p t) : Step (base p) := by
  refine Step.quiet (T.bind ((h.pre fun _ _ _ h => h.sx).post hB) fun _ => T.pure _) ?_
  exact Val.skip fun _ => Val.pure rfl

theorem rule_step (hs : s.Clean) : Step (ruleCommand s.env) := by
  intro cur pre t i r hn hP hE h
  unfold ruleCommand at h
  obtain ⟨x, u, h1, h2⟩ := bind_inv h
  cases h2
  obtain ⟨c, rfl, ⟨d, rfl⟩, hm⟩ := reads_accessList hs.env _ _ _ h1
  have hb := SE.cases hE (x := 'a') (u := "ccess-list".toList ++ (d ++ r)) (by simp) (by decide)
  by_cases e : pre = []
  · subst e
    exact ⟨_, none, [], rfl, hm cur, Or.inl rfl⟩
  · exfalso
    rw [List.append_assoc] at hP
    exact hP.now (c := "access-list".toList) (by decide) (Or.inl ⟨pre, _, rfl, hb, Or.inr (Or.inr ⟨e, Or.inl (List.prefix_refl _)⟩)⟩)

/-- Behind `ip` or `ipv6` and blanks. -/
def S2 (k : String) : As := fun cur p _ =>
  ∃ q b, p = q ++ (k.toList ++ b) ∧ (∀ c ∈ q, c = ' ') ∧ (q ≠ [] → cur = none) ∧ b ≠ [] ∧ ∀ c ∈ b, isBlank c = true

theorem SE.none {cur : Option String} {p t : List Char} (h : SE cur p t) {x : Char} {u : List Char} (ht : t = x :: u) (hx : x.isAlpha = true) :
    p ≠ [] → cur = none := by
  intro hp
  rcases h with rfl | h | h
  · exact absurd rfl hp
  · have := h.2 x (by rw [ht]; simp)
    rw [hx] at this
    cases this
  · exact h.1

theorem second_T {k : String} (hk : k = "ip" ∨ k = "ipv6") {f : Unit → P β} {B : As} (hf : ∀ a, T (S2 k) (f a) B) :
    T SE (do let _ ← tok g k; ws >>= f) B := by
  intro cur pre t a r hn hP hE h
  obtain ⟨x, u, h1, h2⟩ := bind_inv h
  obtain ⟨y, v, h3, h4⟩ := bind_inv h2
  obtain ⟨c, rfl, -, rfl⟩ := reads_tok _ _ _ _ _ h1
  obtain ⟨b, rfl, hb, hb'⟩ := reads_blanks _ _ _ h3
  have hx : ∃ x u, k.toList ++ (b ++ v) = x :: u ∧ x.isAlpha = true := by
    rcases hk with rfl | rfl
    · exact ⟨'i', 'p' :: (b ++ v), rfl, by decide⟩
    · exact ⟨'i', "pv6".toList ++ (b ++ v), rfl, by decide⟩
  obtain ⟨x, u, e, hx⟩ := hx
  have hnk : '\n' ∉ k.toList ++ b := by
    have : '\n' ∉ k.toList := by rcases hk with rfl | rfl <;> decide
    simp [this, blanks_notNl hb']
  have hP' : Plain (pre ++ (k.toList ++ b)) v := by
    have := (Moves.line (cur := cur) (p := pre) hnk).plain (r := v) (by rw [List.append_assoc]; exact hP)
    exact this
  obtain ⟨c, cur', pre', rfl, h5, h6⟩ := hf y cur (pre ++ (k.toList ++ b)) v a r
    (by rw [List.mem_append, not_or]; exact ⟨hn, hnk⟩) hP'
    ⟨pre, b, rfl, SE.cases hE e hx, SE.none hE e hx, hb, hb'⟩ h4
  refine ⟨k.toList ++ (b ++ c), cur', pre', by simp, ?_, h6⟩
  have := (Moves.line (cur := cur) (p := pre) hnk).append h5
  simpa using this

theorem S2.dead {k : String} (hk : k = "ip" ∨ k = "ipv6") {cur : Option String} {p t : List Char} (h : S2 k cur p t) {w : List Char}
    (hw : ∃ x r, w = x :: r ∧ isBlank x = false) (ha : Apart "access-list".toList w) : Dead cur (p ++ w) := by
  obtain ⟨q, b, rfl, hq, hn, hb, hb'⟩ := h
  cases q with
  | nil => simpa using dead_second hk hb hb' hw ha cur
  | cons x q =>
    have := hq x (by simp)
    subst this
    rw [hn (by simp)]
    exact dead_indented

theorem tok2_T {k w : String} (hk : k = "ip" ∨ k = "ipv6") (hw : ∃ x r, w.toList = x :: r ∧ isBlank x = false)
    (ha : Apart "access-list".toList w.toList) (hn : '\n' ∉ w.toList) : T (S2 k) (tok g w) SD := by
  intro cur pre t a r hp hP hA h
  obtain ⟨c, rfl, -, rfl⟩ := reads_tok _ _ _ _ _ h
  exact ⟨w.toList, cur, pre ++ w.toList, rfl, .line hn, hA.dead hk hw ha⟩

/-- A word that `access-list` does not begin with, nor the other way round. -/
def Second (w : String) : Prop := (∃ x r, w.toList = x :: r ∧ isBlank x = false) ∧ Apart "access-list".toList w.toList ∧ '\n' ∉ w.toList

instance (w : String) : Decidable (Second w) :=
  match h : w.toList with
  | [] => .isFalse (by rintro ⟨⟨x, r, h', -⟩, -⟩; rw [h] at h'; cases h')
  | x :: r =>
    if h2 : isBlank x = false ∧ Apart "access-list".toList w.toList ∧ '\n' ∉ w.toList then
      .isTrue ⟨⟨x, r, h, h2.1⟩, h2.2⟩
    else .isFalse (by rintro ⟨⟨y, r', h1, h3⟩, h4⟩; rw [h] at h1; cases h1; exact h2 ⟨h3, h4⟩)

theorem ignoredOf2_T {k : String} (hk : k = "ip" ∨ k = "ipv6") {l : List (String × IosText.Tail)}
    (h : ∀ kt ∈ l, Second kt.1 ∧ (kt.2 = .pool → kt.1 = "dhcp pool" ∧ k = "ip")) : T (S2 k) (ignoredOf g l) SE := by
  unfold ignoredOf
  apply T.alts_map
  intro p hp
  obtain ⟨kt, hkt, rfl⟩ := List.mem_map.1 hp
  obtain ⟨⟨h1, h2, h3⟩, h4⟩ := h kt hkt
  by_cases e : kt.2 = .pool
  · apply T.false
    intro cur pre t a r hn hP hA ht
    obtain ⟨x, u, i1, -⟩ := bind_inv ht
    obtain ⟨c, rfl, -, rfl⟩ := reads_tok _ _ _ _ _ i1
    obtain ⟨q, b, rfl, hq, -, hb, hb'⟩ := hA
    refine hP.now h3 (Or.inl ⟨q, k.toList ++ b ++ kt.1.toList, by simp, hq, Or.inr (Or.inl ⟨b, hb, hb', ?_⟩)⟩)
    rw [(h4 e).1, (h4 e).2]
    exact List.prefix_refl _
  · exact T.bind (tok2_T hk h1 h2 h3) fun _ => tail_T _ e

theorem route_T (hs : s.Clean) : T SD (ipRoute s) SE := by
  have h1 := FwsmText.inl_interfaceRef hs
  unfold ipRoute
  refine T.post (T.alt (B := S0) ?_ ?_) fun _ _ _ h => h.se
  · show OL _
    toend
  · show OL _
    have h2 : InLine (routeGateway s) := by
      unfold routeGateway
      staysin
    unfold routeTo
    toend

theorem Step.second {k : String} (hk : k = "ip" ∨ k = "ipv6") {f : Unit → P Item} (hT : ∀ a, T (S2 k) (f a) SE)
    (hv : ∀ a, Val (f a) (fun i => itemHeads i = [])) : Step (do let _ ← tok g k; ws >>= f) :=
  Step.quiet (second_T hk hT) (Val.skip fun _ => Val.skip fun a => hv a)

/-- A list behind `ip` or `ipv6`. -/
theorem Step.list {k : String} (hk : k = "ip" ∨ k = "ipv6") {f : Unit → P Item}
    (hf : ∀ a, Reads (f a) (fun c i => ∃ l, i = .rules l ∧ (∃ d, c = "access-list".toList ++ d) ∧
      ∀ cur b1, b1 ≠ [] → (∀ x ∈ b1, isBlank x = true) → ∃ n, Moves cur [] (k.toList ++ (b1 ++ c)) (some n) [] (heads l))) :
    Step (do let _ ← tok g k; ws >>= f) := by
  intro cur pre t a r hn hP hE h
  obtain ⟨x, u, h1, h2⟩ := bind_inv h
  obtain ⟨y, v, h3, h4⟩ := bind_inv h2
  obtain ⟨c, rfl, -, rfl⟩ := reads_tok _ _ _ _ _ h1
  obtain ⟨b, rfl, hb, hb'⟩ := reads_blanks _ _ _ h3
  obtain ⟨c, rfl, l, rfl, ⟨d, rfl⟩, hm⟩ := hf y _ _ _ h4
  have hnk : '\n' ∉ k.toList := by rcases hk with rfl | rfl <;> decide
  have hx : ∃ x u, k.toList ++ (b ++ ("access-list".toList ++ d ++ r)) = x :: u ∧ x.isAlpha = true := by
    rcases hk with rfl | rfl
    · exact ⟨'i', 'p' :: (b ++ ("access-list".toList ++ d ++ r)), rfl, by decide⟩
    · exact ⟨'i', "pv6".toList ++ (b ++ ("access-list".toList ++ d ++ r)), rfl, by decide⟩
  obtain ⟨x, u, e, hx⟩ := hx
  have hbl := SE.cases hE e hx
  by_cases e : pre = []
  · subst e
    obtain ⟨n, hm⟩ := hm cur b hb hb'
    exact ⟨k.toList ++ (b ++ ("access-list".toList ++ d)), some n, [], by simp, hm, Or.inl rfl⟩
  · exfalso
    have e2 : k.toList ++ (b ++ ("access-list".toList ++ d ++ r)) = (k.toList ++ b ++ "access-list".toList) ++ (d ++ r) := by
      simp only [List.append_assoc]
    rw [e2] at hP
    refine hP.now ?_ (Or.inl ⟨pre, _, rfl, hbl, Or.inr (Or.inr ⟨e, Or.inr ⟨k, b, hk, hb, hb', List.prefix_refl _⟩⟩)⟩)
    simp only [List.mem_append, not_or]
    exact ⟨⟨hnk, blanks_notNl hb'⟩, by decide⟩

theorem bind_alts {p : P α} {l : List (P β)} {f : P β} {t r : Text} {b : β} (h : (p >>= fun _ => alts (f :: l)) t = .ok b r) :
    (p >>= fun _ => f) t = .ok b r ∨ (p >>= fun _ => alts l) t = .ok b r := by
  obtain ⟨a, u, h1, h2⟩ := bind_inv h
  rcases alt_inv h2 with h2 | h2
  · exact Or.inl (by rw [bind_ok h1]; exact h2)
  · exact Or.inr (by rw [bind_ok h1]; exact h2)

theorem Step.split {k : String} {p q : P Item} (h1 : Step (do let _ ← tok g k; ws; p)) (h2 : Step (do let _ ← tok g k; ws; q)) :
    Step (do let _ ← tok g k; ws; Peg.alt p q) := by
  intro cur pre t i r hn hP hE h
  obtain ⟨x, u, i1, i2⟩ := bind_inv h
  obtain ⟨y, v, i3, i4⟩ := bind_inv i2
  rcases alt_inv i4 with i4 | i4
  · exact h1 _ _ _ _ _ hn hP hE (by rw [bind_ok i1, bind_ok i3]; exact i4)
  · exact h2 _ _ _ _ _ hn hP hE (by rw [bind_ok i1, bind_ok i3]; exact i4)

theorem ip_step (hs : s.Clean) : Step (ip s) := by
  unfold ip
  refine Step.split ?_ (Step.split ?_ (Step.split ?_ (Step.split ?_ ?_)))
  · exact Step.list (Or.inl rfl) fun _ => reads_ipLists hs.env
  · refine Step.second (Or.inl rfl) (fun _ => ?_) (fun _ => by unfold ipDomain; norules)
    unfold ipDomain
    obtain ⟨h1, h2, h3⟩ : Second "domain name" := by decide
    exact T.bind (tok2_T (Or.inl rfl) h1 h2 h3) fun _ => T.bind (T.inl inLine_ws) fun _ => T.bind objName_SN fun _ =>
      (T.pure _).post fun _ _ _ h => Or.inr (Or.inl h)
  · refine Step.second (Or.inl rfl) (fun _ => ?_) (fun _ => by unfold ipRoutes ipRoute routeTo; norules)
    unfold ipRoutes
    obtain ⟨h1, h2, h3⟩ : Second "route" := by decide
    exact T.bind (tok2_T (Or.inl rfl) h1 h2 h3) fun _ => T.bind (T.inl inLine_ws) fun _ => route_T hs
  · refine Step.second (Or.inl rfl) (fun _ => ?_) (fun _ => by unfold ipRest; norules)
    unfold ipRest
    exact T.bind (ignoredOf2_T (Or.inl rfl) (by decide +kernel)) fun _ => T.pure _
  · intro cur pre t i r hn hP hE h
    obtain ⟨x, u, i1, i2⟩ := bind_inv h
    obtain ⟨y, v, i3, i4⟩ := bind_inv i2
    cases i4

theorem ipv6_step (hs : s.Clean) : Step (ipv6 s.env) := by
  unfold ipv6
  refine Step.split ?_ ?_
  · refine Step.list (Or.inr rfl) fun _ => ?_
    refine (Reads.bind (reads_ip6AccessList hs.env) fun l => reads_pure _).mono ?_
    rintro c i ⟨c1, c2, l, rfl, ⟨h1, h2⟩, rfl, rfl⟩
    refine ⟨l, rfl, by simpa using h1, ?_⟩
    simpa using h2
  · refine Step.second (Or.inr rfl) (fun _ => ?_) (fun _ => by norules)
    exact T.bind (ignoredOf2_T (Or.inr rfl) (by decide +kernel)) fun _ => T.pure _

/-- One command of the file. -/
theorem command_step (hs : s.Clean) (hg : ∀ r, s.env.guard "^C" r = true) {cur : Option String} {pre t r : List Char} {i : Item} {s' : St} (hn : '\n' ∉ pre) (hP : Plain pre t)
    (hE : SE cur pre t) (h : command s t = .ok (i, s') r) :
    ∃ c cur' pre', t = c ++ r ∧ Moves cur pre c cur' pre' (itemHeads i) ∧ SE cur' pre' r := by
  have keepS : ∀ {p : P Item}, Step p → keep s p t = .ok (i, s') r →
      ∃ c cur' pre', t = c ++ r ∧ Moves cur pre c cur' pre' (itemHeads i) ∧ SE cur' pre' r := by
    intro p hp h
    obtain ⟨x, u, h1, h2⟩ := bind_inv h
    cases h2
    exact hp _ _ _ _ _ hn hP hE h1
  have quiet : ∀ {p : P (Item × St)}, T SX p SE → Val p (fun x => itemHeads x.1 = []) → p t = .ok (i, s') r →
      ∃ c cur' pre', t = c ++ r ∧ Moves cur pre c cur' pre' (itemHeads i) ∧ SE cur' pre' r := by
    intro p hT hv h
    obtain ⟨c, cur', pre', h1, h2, h3⟩ := hT _ _ _ _ _ hn hP hE.sx h
    exact ⟨c, cur', pre', h1, by rw [hv _ _ _ h]; exact h2, h3⟩
  unfold command at h
  rcases alt_inv h with h | h
  · exact keepS (base_step version_T fun _ _ _ h => h.se) h
  rcases alt_inv h with h | h
  · exact keepS (base_step hostname_T fun _ _ _ h => h.se) h
  rcases alt_inv h with h | h
  · exact keepS (base_step domainName_T fun _ _ _ h => h) h
  rcases alt_inv h with h | h
  · exact quiet interface_T (by unfold interface; norules) h
  rcases alt_inv h with h | h
  · exact quiet (objectGroup_T hs) (by unfold objectGroup; norules) h
  rcases alt_inv h with h | h
  · exact keepS (rule_step hs) h
  rcases alt_inv h with h | h
  · exact keepS (ip_step hs) h
  rcases alt_inv h with h | h
  · exact keepS (ipv6_step hs) h
  rcases alt_inv h with h | h
  · exact keepS (Step.quiet (T.bind (ignored_T hg) fun _ => T.pure _) (by norules)) h
  cases h

/-- The rules of the result by list and action, in order. -/
def headsOf (l : List Item) : List (String × String) := l.flatMap itemHeads

theorem headsOf_rules (l : List Item) : headsOf l = heads (rulesOf l) := by
  induction l with
  | nil => rfl
  | cons i l ih =>
    unfold headsOf at *
    rw [List.flatMap_cons, ih]
    cases i with
    | base => rfl
    | rule r => rfl
    | rules l' => simp [itemHeads, heads, rulesOf]
    | route => rfl

theorem commands_lines {n : Nat} : ∀ {s : St} {cur : Option String} {pre t r : List Char} {l : List Item} {s' : St}, t.length = n →
    s.Clean → (∀ r, s.env.guard "^C" r = true) → '\n' ∉ pre → Plain pre t → SE cur pre t → commands s t = .ok (l, s') r →
    ∃ c cur' pre', t = c ++ r ∧ Moves cur pre c cur' pre' (headsOf l) ∧ SE cur' pre' r := by
  induction n using Nat.strongRecOn with
  | _ n ih =>
    intro s cur pre t r l s' hlen hs hg hn hP hE h
    rw [commands] at h
    generalize hc : command s t = v at h
    cases v with
    | fail => cases h; exact ⟨[], cur, pre, rfl, .nil _ _, hE⟩
    | raise e => cases h
    | ok x u =>
      obtain ⟨i, s1⟩ := x
      simp only at h
      split at h
      · rename_i hlt
        generalize hq : commands s1 u = w at h
        cases w with
        | fail => cases h
        | raise e => cases h
        | ok y z =>
          obtain ⟨l', s2⟩ := y
          cases h
          obtain ⟨c, cur', pre', rfl, h1, h2⟩ := command_step hs hg hn hP hE hc
          obtain ⟨d, cur'', pre'', rfl, h3, h4⟩ := ih u.length (by omega) rfl (command_clean hs _ _ _ hc)
            (by rw [command_guard _ _ _ hc]; exact hg) (h1.noNl hn) (h1.plain hP) h2 hq
          exact ⟨c ++ d, cur'', pre'', by simp, h1.append h3, h4⟩
      · cases h; exact ⟨[], cur, pre, rfl, .nil _ _, hE⟩

/-- At the beginning of a line, perhaps behind blanks. -/
def AtLine (c : List Char) : Prop := ∃ a b, c = a ++ b ∧ (a = [] ∨ ∃ a', a = a' ++ ['\n']) ∧ ∀ x ∈ b, x = ' '

theorem Moves.atLine {cur cur' : Option String} {p c p' : List Char} {o : List (String × String)} (h : Moves cur p c cur' p' o) :
    ∃ a, p ++ c = a ++ p' ∧ (a = [] ∨ ∃ a', a = a' ++ ['\n']) := by
  induction h with
  | nil => exact ⟨[], by simp, Or.inl rfl⟩
  | chr _ _ x _ _ _ _ hx _ ih =>
    obtain ⟨a, h1, h2⟩ := ih
    exact ⟨a, by rw [← h1]; simp, h2⟩
  | banner _ b _ _ _ _ hb _ ih =>
    obtain ⟨a, h1, h2⟩ := ih
    obtain ⟨u, rfl⟩ := hb.1
    rw [List.nil_append] at h1
    subst h1
    refine ⟨u ++ '\n' :: a, by simp, Or.inr ?_⟩
    rcases h2 with rfl | ⟨a', rfl⟩
    · exact ⟨u, by simp⟩
    · exact ⟨u ++ '\n' :: a', by simp⟩
  | nl _ p _ _ _ _ _ _ ih =>
    obtain ⟨a, h1, h2⟩ := ih
    rw [List.nil_append] at h1
    subst h1
    refine ⟨p ++ '\n' :: a, by simp, Or.inr ?_⟩
    rcases h2 with rfl | ⟨a', rfl⟩
    · exact ⟨p, by simp⟩
    · exact ⟨p ++ '\n' :: a', by simp⟩

theorem unfinished {cur : Option String} {p : List Char} {t : Text} (h : SE cur p t) : rules cur [p] = [] := by
  have dead : Dead cur p → rules cur [p] = [] := by
    intro h
    unfold rules rulesIn
    simp only [show opens p = none by simpa using (h [] (by simp)).2, h.line]
    rfl
  rcases h with rfl | h | h
  · rfl
  · exact dead h.1
  · exact dead h.dead

/-- **C91.** Whenever the IOS parser accepts a text without odd lines (no DHCP pool, no access list command or banner behind
blanks, no banner command outside ASCII, no `^^C`), the part `c` of the text that it has read — all of it, or up to a line that begins with `line` or `end` — holds exactly
the rules of the result: the rules by list and action are those of the lines of `c`, in order. -/
theorem C91_rules_are_lines_partial (g : Guard) (hg : ∀ r, g "^C" r = true) (t u : List Char) (items : List Item) (hp : ∀ l ∈ lines t, ¬ Odd l)
    (h : parseFile g t = .ok items u) :
    ∃ c, heads (rulesOf items) = rules none (lines c) ∧
      ((t = c ∧ u = []) ∨ ∃ k ∈ ["line", "end"], t = c ++ (k.toList ++ u) ∧ AtLine c) := by
  unfold parseFile at h
  generalize hc : commands { env := { guard := g } } t = v at h
  cases v with
  | fail => cases h
  | raise e => cases h
  | ok x r =>
    obtain ⟨l, s'⟩ := x
    simp only at h
    obtain ⟨c, cur', pre', rfl, hm, hE⟩ := commands_lines (cur := none) (pre := []) rfl
      ⟨⟨by simp, by simp, by simp, by simp, by simp, by simp, by simp, by simp, by simp⟩, by simp⟩ hg (by simp) hp (Or.inl rfl) hc
    have hr : heads (rulesOf l) = rules none (lines c) := by
      have := hm.rules []
      rw [List.append_nil] at this
      rw [← headsOf_rules, lines, this]
      simp [linesFrom, unfinished hE]
    split at h
    · cases h
    · generalize ho : oneOf g ["line", "end"] r = w at h
      have eof : (if r.isEmpty then Res.ok l [] else .fail) = .ok items u → ∃ c', heads (rulesOf items) = rules none (lines c') ∧
          ((c ++ r = c' ∧ u = []) ∨ ∃ k ∈ ["line", "end"], c ++ r = c' ++ (k.toList ++ u) ∧ AtLine c') := by
        intro h
        cases r with
        | cons x r => cases h
        | nil =>
          cases h
          exact ⟨c, hr, Or.inl ⟨by simp, rfl⟩⟩
      cases w with
      | fail => exact eof h
      | raise e => exact eof h
      | ok k z =>
        cases h
        obtain ⟨d, rfl, hk, rfl⟩ := reads_oneOf _ _ _ _ _ ho
        refine ⟨c, hr, Or.inr ⟨k, hk, rfl, ?_⟩⟩
        obtain ⟨a, h1, h2⟩ := hm.atLine
        refine ⟨a, pre', h1, h2, ?_⟩
        simp only [List.mem_cons, List.not_mem_nil, or_false] at hk
        rcases hk with rfl | rfl
        · exact SE.cases hE (x := 'l') rfl (by decide)
        · exact SE.cases hE (x := 'e') rfl (by decide)

/-! ## a configuration -/

/-- What follows a word and blanks. -/
def behind (k : String) (r : List Char) : List Char :=
  if k.toList <+: r then (r.drop k.toList.length).dropWhile isBlank else []

/-- The line is certainly not odd. -/
def Calm (l : List Char) : Prop :=
  (l.head? = some ' ' → ¬ "banner".toList <+: l.dropWhile (· == ' ')) ∧ ¬ "dhcp pool".toList <+: behind "ip" (l.dropWhile (· == ' ')) ∧
    (l.head? = some ' ' → ¬ "access-list".toList <+: l.dropWhile (· == ' ') ∧
      ∀ k ∈ ["ip", "ipv6"], ¬ "access-list".toList <+: behind k (l.dropWhile (· == ' '))) ∧
    (∀ c ∈ l, c.toNat < 128) ∧ occurs "^^C".toList l = false

instance (l : List Char) : Decidable (Calm l) := by unfold Calm; infer_instance

theorem dropWhile_blanks {p : Char → Bool} {b r k : List Char} {x : Char} (hb : ∀ c ∈ b, p c = true) (hx : p x = false)
    (hk : x :: k <+: r) : (b ++ r).dropWhile p = r := by
  induction b with
  | nil =>
    obtain ⟨u, rfl⟩ := hk
    simp [hx]
  | cons c b ih =>
    rw [List.cons_append, List.dropWhile_cons_of_pos (hb c (by simp))]
    exact ih fun c hc => hb c (by simp [hc])

theorem behind_eq {k : String} {w r v : List Char} {x : Char} (hw : ∀ c ∈ w, isBlank c = true) (hx : isBlank x = false)
    (h : k.toList ++ w ++ (x :: v) <+: r) : x :: v <+: behind k r := by
  obtain ⟨u, rfl⟩ := h
  have h1 : k.toList <+: k.toList ++ w ++ (x :: v) ++ u := ⟨w ++ (x :: v) ++ u, by simp⟩
  rw [behind, if_pos h1]
  have h2 : (k.toList ++ w ++ (x :: v) ++ u).drop k.toList.length = w ++ ((x :: v) ++ u) := by simp
  rw [h2, dropWhile_blanks hw hx (k := v) ⟨u, by simp⟩]
  exact ⟨u, rfl⟩

theorem Calm.notOdd {l : List Char} (h : Calm l) : ¬ Odd l := by
  obtain ⟨h1, h2, h3, h4, h5⟩ := h
  rintro (⟨b, r, rfl, hb, ho⟩ | ⟨-, c, hc, hge⟩ | ⟨a, b, hl⟩)
  case inr.inl => exact absurd (h4 c hc) (by omega)
  case inr.inr =>
    rw [(occurs_iff (by decide)).2 ⟨a, b, hl⟩] at h5
    cases h5
  have hb' : ∀ c ∈ b, (c == ' ') = true := fun c hc => by simp [hb c hc]
  have head : b ≠ [] → (b ++ r).head? = some ' ' := by
    intro hne
    cases b with
    | nil => exact absurd rfl hne
    | cons c b => simp [hb c (by simp)]
  rcases ho with ⟨hne, ho⟩ | ⟨w, -, hw, ho⟩ | ⟨hne, ho | ⟨k, w, hk, -, hw, ho⟩⟩
  · have := h1 (head hne)
    rw [dropWhile_blanks hb' (x := 'b') (by decide) ho] at this
    exact this ho
  · rw [dropWhile_blanks hb' (x := 'i') (k := []) (by decide) (by
      obtain ⟨u, rfl⟩ := ho; exact ⟨_, rfl⟩)] at h2
    exact h2 (behind_eq hw (by decide) ho)
  · have := (h3 (head hne)).1
    rw [dropWhile_blanks hb' (x := 'a') (by decide) ho] at this
    exact this ho
  · have := (h3 (head hne)).2 k (by rcases hk with rfl | rfl <;> simp)
    rw [dropWhile_blanks hb' (x := 'i') (k := []) (by decide) (by
      obtain ⟨u, rfl⟩ := ho; rcases hk with rfl | rfl <;> exact ⟨_, rfl⟩)] at this
    exact this (behind_eq hw (by decide) ho)

/-- A guard like TatSu's: a word is not a keyword if letters or digits follow; `^C` is no word. -/
def wordGuard : Guard := fun k r => !k.toList.all Char.isAlphanum || FwsmText.sampleGuard k r

theorem wordGuard_caret : ∀ r, wordGuard "^C" r = true := by
  intro r
  show (!("^C".toList.all Char.isAlphanum) || _) = true
  rw [show "^C".toList.all Char.isAlphanum = false by decide]
  rfl

/-- What the parser finds: the rules and the text it has not read. -/
def readHeads (t : List Char) : Option (List (String × String) × List Char) :=
  match parseFile wordGuard t with
  | .ok l u => some (heads (rulesOf l), u)
  | _ => none

theorem readHeads_spec {t u : List Char} {hs : List (String × String)} (h : readHeads t = some (hs, u)) :
    ∃ items, parseFile wordGuard t = .ok items u ∧ heads (rulesOf items) = hs := by
  unfold readHeads at h
  generalize parseFile wordGuard t = v at h
  cases v with
  | fail => cases h
  | raise e => cases h
  | ok l r =>
    simp only [Option.some.injEq, Prod.mk.injEq] at h
    exact ⟨l, by rw [h.2], h.1⟩

/-- Rules of a named, a standard, an IPv6 and a numbered list, among remarks, banners and other commands. -/
def sampleFile : List Char :=
  ("version 15.2\nhostname r1\nbanner motd ^CWelcome\naccess-list 99 permit any\n\nbye^C\nip access-list extended A\n remark web\n permit tcp any host 10.0.0.1 eq 80\n" ++
   " 20 deny ip any any log\nip access-list standard S\n permit 10.1.0.0 0.0.255.255\nip route 0.0.0.0 0.0.0.0 10.0.0.9\n" ++
   "interface Vlan1\n ip access-group A in\nbanner motd #one line#\naccess-list 101 remark x\naccess-list 101 permit ip any any\naccess-list 7 deny any\n" ++
   "ipv6 access-list B\n sequence 10 permit ipv6 any any\n sequence 20 deny ipv6 any any\nend\nnothing\n").toList

/-- The hypotheses of C91 are met by a configuration with rules of all four kinds. -/
theorem C91_sample : (∀ r, wordGuard "^C" r = true) ∧ (∀ l ∈ lines sampleFile, ¬ Odd l) ∧ ∃ items,
    parseFile wordGuard sampleFile = .ok items "\nnothing\n".toList ∧
    heads (rulesOf items) = [("A", "permit"), ("A", "deny"), ("S", "permit"), ("101", "permit"), ("7", "deny"), ("B", "permit"),
      ("B", "deny")] :=
  ⟨wordGuard_caret, fun l hl => Calm.notOdd ((by decide +kernel : ∀ l ∈ lines sampleFile, Calm l) l hl), readHeads_spec (by decide +kernel)⟩

/-- **C91 (violated, DHCP pool).** Rules behind a DHCP pool are lost. -/
theorem C91_violated_pool : rules none (lines "ip dhcp pool P\naccess-list 101 permit ip any any\n".toList) = [("101", "permit")] ∧
    ∃ items, parseFile wordGuard "ip dhcp pool P\naccess-list 101 permit ip any any\n".toList = .ok items [] ∧
      heads (rulesOf items) = [] :=
  ⟨by decide +kernel, readHeads_spec (by decide +kernel)⟩

/-- **C91 (violated, behind a blank).** A line behind a port group which is indented becomes a rule of a numbered list. -/
theorem C91_violated_indented :
    rules none (lines "object-group service N tcp\n port-object eq 80\n access-list 101 permit ip any any\n".toList) = [] ∧
    ∃ items, parseFile wordGuard "object-group service N tcp\n port-object eq 80\n access-list 101 permit ip any any\n".toList
      = .ok items [] ∧ heads (rulesOf items) = [("101", "permit")] :=
  ⟨by decide +kernel, readHeads_spec (by decide +kernel)⟩

/-- **C91 (violated, the end).** Rules behind a line that begins with `line` or `end` are lost. -/
theorem C91_violated_end : rules none (lines "hostname x\nend\naccess-list 101 permit ip any any\n".toList) = [("101", "permit")] ∧
    ∃ items, parseFile wordGuard "hostname x\nend\naccess-list 101 permit ip any any\n".toList
      = .ok items "\naccess-list 101 permit ip any any\n".toList ∧ heads (rulesOf items) = [] :=
  ⟨by decide +kernel, readHeads_spec (by decide +kernel)⟩

/-- **C91 (violated, a caret in front of the delimiter).** The parser misses a `^C` that stands behind a caret: the banner goes on,
and the rules behind it are lost. -/
theorem C91_violated_caret : rules none (lines "banner motd ^Cx^^C\naccess-list 101 permit ip any any\nbanner motd ^C\n".toList) =
      [("101", "permit")] ∧
    ∃ items, parseFile wordGuard "banner motd ^Cx^^C\naccess-list 101 permit ip any any\nbanner motd ^C\n".toList = .ok items [] ∧
      heads (rulesOf items) = [] :=
  ⟨by decide +kernel, readHeads_spec (by decide +kernel)⟩

/-- **C91 (violated, a banner behind a blank).** -/
theorem C91_violated_banner_indented :
    rules none (lines "object-group service N tcp\n port-object eq 80\n banner motd #\naccess-list 101 permit ip any any\n#\n".toList) =
      [("101", "permit")] ∧
    ∃ items, parseFile wordGuard
      "object-group service N tcp\n port-object eq 80\n banner motd #\naccess-list 101 permit ip any any\n#\n".toList = .ok items [] ∧
      heads (rulesOf items) = [] :=
  ⟨by decide +kernel, readHeads_spec (by decide +kernel)⟩

end Acltk.IosLines
