import Verif.Spec.PfsenseSpec
import Verif.Lemmas.Text
import Verif.Props.NetText
/-!
# C47: pfSense rules
-/
namespace Acltk.Pf
open Acltk

theorem bind_ok {α β : Type} {x : Py α} {f : α → Py β} {b : β} :
    (x >>= f) = .ok b ↔ ∃ a, x = .ok a ∧ f a = .ok b := by
  cases x with
  | error e => simp [bind, Except.bind]
  | ok a => simp [bind, Except.bind]

/-! ## texts -/

theorem splitOn_two {c : Char} {s a b : List Char} (h : splitOn c s = [a, b]) :
    s = a ++ c :: b ∧ c ∉ a ∧ c ∉ b := by
  have h1 := joinWith_splitOn c s
  have h2 := splitOn_no_sep c s
  rw [h] at h1 h2
  exact ⟨by simpa [joinWith] using h1.symm, h2 a (by simp), h2 b (by simp)⟩

theorem splitOn_two' {c : Char} {a b : List Char} (ha : c ∉ a) (hb : c ∉ b) :
    splitOn c (a ++ c :: b) = [a, b] := by
  rw [splitOn_append_sep ha, splitOn_of_not_mem hb]

theorem networkOf_ok {l : List (List Char)} {h : Host} :
    networkOf l = .ok h ↔ ∃ a m n, l = [a, m] ∧ mkNetwork a m = .ok n ∧ h = .net n := by
  unfold networkOf
  split
  · rename_i a m
    constructor
    · intro he
      cases hm : mkNetwork a m with
      | error e => rw [hm] at he; cases he
      | ok n => rw [hm] at he; cases he; exact ⟨a, m, n, rfl, hm, rfl⟩
    · rintro ⟨a', m', n, h1, h2, rfl⟩
      cases h1
      rw [h2]
  · rename_i a m x
    cases hm : mkNetwork a m <;> simp
  · rename_i hne _
    simp only [reduceCtorEq, false_iff, not_exists, not_and]
    rintro a m n rfl
    exact absurd rfl (hne a m)

theorem mkNetwork_meaning {a m : List Char} {net : Net} (h : mkNetwork a m = .ok net) :
    ∃ x n, ipAddress a = .ok x ∧ MaskText x.ver m n ∧ ∀ y, net.Denotes y ↔ AgreeTop n y x := by
  by_cases hx : ∃ x, ipAddress a = .ok x ∧ ∃ n, MaskText x.ver m n
  · obtain ⟨x, hx, n, hn⟩ := hx
    obtain ⟨net', h1, -, -, h2, -⟩ := C19_network_denotes _ _ _ _ hx hn
    rw [h] at h1
    cases h1
    exact ⟨x, n, hx, hn, h2⟩
  · have := C19_network_rejects a m (fun x hx' hn => hx ⟨x, hx', hn⟩)
    rw [h] at this
    cases this

theorem splitMax2_two {s a b : List Char} :
    splitMax2 s = [a, b] ↔ s = a ++ '-' :: b ∧ '-' ∉ a ∧ '-' ∉ b := by
  constructor
  · intro h
    apply splitOn_two
    unfold splitMax2 at h
    split at h
    · simp at h
    · exact h
  · rintro ⟨rfl, ha, hb⟩
    unfold splitMax2
    rw [splitOn_two' ha hb]

theorem mkPortRange_ok {a b : String} {p : PortLeaf} :
    mkPortRange a b = .ok p ↔
      p = .range a b ∧ ∀ i j, pyInt a.toList = some i → pyInt b.toList = some j → a < b := by
  unfold mkPortRange
  cases hi : pyInt a.toList with
  | none => simp [eq_comm]
  | some i =>
    cases hj : pyInt b.toList with
    | none => simp [eq_comm]
    | some j =>
      by_cases hlt : a < b <;> simp [hlt, eq_comm]

/-! ## address and port children -/

/-- The value of an address child. -/
def addrEval (t : Tables) (c : Elem) : Py Host :=
  if c.tag = "any" then .ok .any
  else if c.tag = "address" then addressChild t c.text
  else networkChild t c.text

theorem addrEval_means {t : Tables} {c : Elem} {h : Host} (hc : isAddr c = true)
    (he : addrEval t c = .ok h) : AddrMeans t c h := by
  unfold addrEval at he
  split at he
  · cases he; exact .any ‹_›
  · split at he
    · rename_i ht
      unfold addressChild at he
      split at he
      · cases he; exact .alias _ ht ‹_›
      · rename_i hn
        split at he
        · cases he
        · rename_i s hs
          split at he
          · obtain ⟨a, m, n, h1, h2, rfl⟩ := networkOf_ok.1 he
            obtain ⟨e1, e2, e3⟩ := splitOn_two h1
            obtain ⟨x, k, g1, g2, g3⟩ := mkNetwork_meaning h2
            exact .net s a m x k n ht hn hs e1 e2 e3 g1 g2 g3
          · rename_i hsl
            unfold hostOf at he
            split at he
            · cases he
            · cases he
              exact .host s _ ht hn hs hsl ‹_›
    · rename_i h1 h2
      have ht : c.tag = "network" := by
        unfold isAddr at hc
        simpa [h1, h2] using hc
      unfold networkChild at he
      split at he
      · cases he
      · split at he
        · cases he
          exact .iface _ _ ht ‹_› ‹_›
        · cases he

theorem means_addrEval {t : Tables} {c : Elem} {h : Host} (hm : AddrMeans t c h) :
    ∃ h', addrEval t c = .ok h' := by
  cases hm with
  | any ht => exact ⟨_, by unfold addrEval; rw [if_pos ht]⟩
  | alias g ht hg =>
    exact ⟨h, by unfold addrEval addressChild; rw [if_neg (by rw [ht]; decide), if_pos ht, hg]⟩
  | host s a ht hg hs hsl ha =>
    refine ⟨.host a, ?_⟩
    unfold addrEval addressChild
    rw [if_neg (by rw [ht]; decide), if_pos ht, hg, hs]
    simp [hsl, hostOf, ha]
  | net s a m x n net ht hg hs he h1 h2 ha hmk hd =>
    obtain ⟨net', hk, -⟩ := C19_network_denotes _ _ _ _ ha hmk
    refine ⟨.net net', ?_⟩
    unfold addrEval addressChild
    rw [if_neg (by rw [ht]; decide), if_pos ht, hg, hs]
    simp only [he, splitOn_two' h1 h2]
    simp [networkOf, hk]
  | iface s o ht hs ho =>
    refine ⟨.iface o.alias, ?_⟩
    unfold addrEval networkChild
    rw [if_neg (by rw [ht]; decide), if_neg (by rw [ht]; decide), hs]
    simp [ho]

theorem portChild_means {t : Tables} {c : Elem} {p : PortRef} :
    portChild t c.text = .ok p ↔ PortMeans t c p := by
  unfold portChild
  constructor
  · intro he
    split at he
    · cases he; exact .alias _ ‹_›
    · rename_i hn
      split at he
      · cases he
      · rename_i s hs
        split at he
        · split at he
          · cases he
          · rename_i r hr
            cases he
            unfold rangeOf at hr
            split at hr
            · rename_i a b hab
              obtain ⟨e1, e2, e3⟩ := splitMax2_two.1 hab
              obtain ⟨rfl, hlt⟩ := mkPortRange_ok.1 hr
              exact .range s a b hn hs e1 e2 e3 (by simpa using hlt)
            · cases hr
        · cases he
          exact .one s hn hs ‹_›
  · intro hm
    cases hm with
    | alias g hg => rw [hg]
    | one s hn hs hd => rw [hn, hs]; simp [hd]
    | range s a b hn hs he h1 h2 hlt =>
      rw [hn, hs]
      have hr : mkPortRange (String.ofList a) (String.ofList b) = .ok (.range (String.ofList a) (String.ofList b)) :=
        mkPortRange_ok.2 ⟨rfl, by simpa using hlt⟩
      have hm : '-' ∈ s.toList := by rw [he]; simp
      simp only [hm, if_true, splitMax2_two.2 ⟨he, h1, h2⟩, rangeOf, hr]

/-! ## nodes -/

/-- The last element of a list, or the default. -/
def lastOr {α β : Type} (d : β) (f : α → β) (l : List α) : β := (l.getLast?.map f).getD d

theorem lastOr_cons {α β : Type} (d : β) (f : α → β) (x : α) (l : List α) :
    lastOr d f (x :: l) = lastOr (f x) f l := by
  unfold lastOr
  cases l with
  | nil => rfl
  | cons y t =>
    have h1 : (x :: y :: t).getLast? = (y :: t).getLast? := by simp [List.getLast?_cons_cons]
    rw [h1]
    have : (y :: t).getLast? ≠ none := by simp
    cases h : (y :: t).getLast? with
    | none => exact absurd h this
    | some z => rfl

/-- A child of a node that evaluates. -/
def ChildOk (t : Tables) (c : Elem) : Prop :=
  (isAddr c = true ∧ ∃ h, addrEval t c = .ok h) ∨ (c.tag = "port" ∧ ∃ p, portChild t c.text = .ok p)

theorem isAddr_not_port {c : Elem} (h : c.tag = "port") : isAddr c = false := by
  simp [isAddr, h]

theorem isAddr_tag {c : Elem} (h : isAddr c = true) : c.tag ≠ "port" := by
  intro e; rw [isAddr_not_port e] at h; cases h

theorem nodeLoop_cons_addr {t : Tables} {a : Option Host} {p : Option PortRef} {n : Elem}
    {ns : List Elem} (h : isAddr n = true) :
    nodeLoop t a p (n :: ns) = (addrEval t n >>= fun h => nodeLoop t (some h) p ns) := by
  simp only [isAddr, Bool.or_eq_true, beq_iff_eq] at h
  rcases h with (h | h) | h <;> simp [nodeLoop, addrEval, h, bind, Except.bind]

theorem nodeLoop_cons_port {t : Tables} {a : Option Host} {p : Option PortRef} {n : Elem}
    {ns : List Elem} (h : n.tag = "port") :
    nodeLoop t a p (n :: ns) = (portChild t n.text >>= fun q => nodeLoop t a (some q) ns) := by
  simp [nodeLoop, h]

theorem nodeLoop_cons_other {t : Tables} {a : Option Host} {p : Option PortRef} {n : Elem}
    {ns : List Elem} (h : isAddr n = false) (h' : n.tag ≠ "port") :
    nodeLoop t a p (n :: ns) = .error .value := by
  simp only [isAddr, Bool.or_eq_false_iff, beq_eq_false_iff_ne] at h
  simp [nodeLoop, h.1.1, h.1.2, h.2, h']

theorem nodeLoop_ok {t : Tables} {l : List Elem} : ∀ {a p a' p'},
    nodeLoop t a p l = .ok (a', p') ↔
      (∀ c ∈ l, ChildOk t c) ∧
      lastOr (.ok a) (fun c => (addrEval t c).map some) (l.filter isAddr) = .ok a' ∧
      lastOr (.ok p) (fun c => (portChild t c.text).map some) (l.filter (fun c => c.tag == "port")) = .ok p' := by
  induction l with
  | nil => intro a p a' p'; simp [nodeLoop, lastOr]
  | cons n ns ih =>
    intro a p a' p'
    by_cases ha : isAddr n = true
    · have hp := isAddr_tag ha
      rw [nodeLoop_cons_addr ha, bind_ok]
      simp only [ih, List.mem_cons, forall_eq_or_imp, List.filter_cons, ha, if_true, beq_iff_eq, hp,
        if_false, lastOr_cons]
      constructor
      · rintro ⟨h, h1, h2, h3, h4⟩
        exact ⟨⟨Or.inl ⟨ha, h, h1⟩, h2⟩, by rw [h1]; exact h3, h4⟩
      · rintro ⟨⟨h1, h2⟩, h3, h4⟩
        rcases h1 with ⟨-, h, h1⟩ | ⟨h1, -⟩
        · exact ⟨h, h1, h2, by rw [h1] at h3; exact h3, h4⟩
        · exact absurd h1 hp
    · simp only [Bool.not_eq_true] at ha
      by_cases hp : n.tag = "port"
      · rw [nodeLoop_cons_port hp, bind_ok]
        simp only [ih, List.mem_cons, forall_eq_or_imp, List.filter_cons, ha, if_true, beq_iff_eq, hp,
          lastOr_cons, Bool.false_eq_true, if_false]
        constructor
        · rintro ⟨h, h1, h2, h3, h4⟩
          exact ⟨⟨Or.inr ⟨hp, h, h1⟩, h2⟩, h3, by rw [h1]; exact h4⟩
        · rintro ⟨⟨h1, h2⟩, h3, h4⟩
          rcases h1 with ⟨h1, -⟩ | ⟨-, h, h1⟩
          · rw [ha] at h1; cases h1
          · exact ⟨h, h1, h2, h3, by rw [h1] at h4; exact h4⟩
      · rw [nodeLoop_cons_other ha hp]
        simp only [List.mem_cons, forall_eq_or_imp, reduceCtorEq, false_iff]
        rintro ⟨⟨h1, -⟩, -⟩
        rcases h1 with ⟨h1, -⟩ | ⟨h1, -⟩
        · rw [ha] at h1; cases h1
        · exact hp h1

theorem parseNode_means {t : Tables} {e : Elem} {n : PNode} (h : parseNode t e = .ok n) :
    NodeMeans t e n := by
  unfold parseNode at h
  rw [bind_ok] at h
  obtain ⟨⟨a, p⟩, h1, h2⟩ := h
  obtain ⟨g1, g2, g3⟩ := nodeLoop_ok.1 h1
  cases a with
  | none => cases h2
  | some a =>
    cases h2
    refine ⟨?_, ?_, ?_, ?_, ?_⟩
    · intro c hc
      rcases g1 c hc with ⟨h, -⟩ | ⟨h, -⟩
      · exact Or.inl h
      · exact Or.inr h
    · intro c hc ha
      rcases g1 c hc with ⟨-, h, hh⟩ | ⟨h, -⟩
      · exact ⟨h, addrEval_means ha hh⟩
      · exact absurd h (isAddr_tag ha)
    · intro c hc hp
      rcases g1 c hc with ⟨h, -⟩ | ⟨-, q, hq⟩
      · exact absurd hp (isAddr_tag h)
      · exact ⟨q, portChild_means.1 hq⟩
    · unfold lastOr at g2
      cases hl : (e.children.filter isAddr).getLast? with
      | none => rw [hl] at g2; simp at g2
      | some c =>
        rw [hl] at g2
        simp only [Option.map_some, Option.getD_some] at g2
        refine ⟨c, rfl, ?_⟩
        have hc : isAddr c = true := (List.mem_filter.1 (List.mem_of_getLast? hl)).2
        cases he : addrEval t c with
        | error x => rw [he] at g2; cases g2
        | ok h => rw [he] at g2; cases g2; exact addrEval_means hc he
    · unfold lastOr at g3
      show match (e.children.filter (fun c => c.tag == "port")).getLast? with | none => p = none | some c => _
      cases hl : (e.children.filter (fun c => c.tag == "port")).getLast? with
      | none => rw [hl] at g3; simp at g3; simp [g3]
      | some c =>
        rw [hl] at g3
        simp only [Option.map_some, Option.getD_some] at g3
        cases he : portChild t c.text with
        | error x => rw [he] at g3; cases g3
        | ok q => rw [he] at g3; cases g3; exact ⟨q, rfl, portChild_means.1 he⟩

theorem parseNode_accepts {t : Tables} {e : Elem} {n : PNode} (h : NodeMeans t e n) :
    ∃ n', parseNode t e = .ok n' := by
  have g1 : ∀ c ∈ e.children, ChildOk t c := by
    intro c hc
    rcases h.known c hc with ha | hp
    · obtain ⟨x, hx⟩ := h.addrs c hc ha
      exact Or.inl ⟨ha, means_addrEval hx⟩
    · obtain ⟨x, hx⟩ := h.ports c hc hp
      exact Or.inr ⟨hp, x, portChild_means.2 hx⟩
  obtain ⟨c, hc, hm⟩ := h.host
  obtain ⟨x, hx⟩ := means_addrEval hm
  have g2 : lastOr (.ok none) (fun c => (addrEval t c).map some) (e.children.filter isAddr) = .ok (some x) := by
    unfold lastOr; rw [hc]; simp [hx, Except.map]
  obtain ⟨q, g3⟩ : ∃ q, lastOr (.ok none) (fun c => (portChild t c.text).map some)
      (e.children.filter (fun c => c.tag == "port")) = .ok q := by
    unfold lastOr
    cases hl : (e.children.filter (fun c => c.tag == "port")).getLast? with
    | none => exact ⟨none, rfl⟩
    | some c =>
      have hcm := List.mem_filter.1 (List.mem_of_getLast? hl)
      rcases g1 c hcm.1 with ⟨ha, -⟩ | ⟨-, q, hq⟩
      · exact absurd (by simpa using hcm.2) (isAddr_tag ha)
      · exact ⟨some q, by simp [hq, Except.map]⟩
  refine ⟨⟨x, q⟩, ?_⟩
  unfold parseNode
  rw [bind_ok]
  exact ⟨(some x, q), nodeLoop_ok.2 ⟨g1, g2, g3⟩, rfl⟩

/-! ## the loop over the children of a rule -/

theorem lastOr_append {α β : Type} (d : β) (f : α → β) (l m : List α) :
    lastOr d f (l ++ m) = lastOr (lastOr d f l) f m := by
  induction l generalizing d with
  | nil => rfl
  | cons x xs ih => rw [List.cons_append, lastOr_cons, lastOr_cons, ih]

/-- The children with a tag. -/
def tagged (tag : String) (l : List Elem) : List Elem := l.filter (fun c => c.tag == tag)

/-- The time children of the children with a tag. -/
def times (tag : String) (l : List Elem) : List Elem := (tagged tag l).flatMap (fun c => tagged "time" c.children)

theorem tagged_append (tag : String) (l m : List Elem) : tagged tag (l ++ m) = tagged tag l ++ tagged tag m := by
  simp [tagged]

theorem times_append (tag : String) (l m : List Elem) : times tag (l ++ m) = times tag l ++ times tag m := by
  simp [times, tagged]

theorem stampLoop_ok {T : Type} {v : Env T} {l : List Elem} : ∀ {x y : T},
    stampLoop v x l = .ok y ↔
      (∀ n ∈ tagged "time" l, ∃ z, v.stamp n.text = .ok z) ∧
      lastOr (.ok x) (fun n => v.stamp n.text) (tagged "time" l) = .ok y := by
  induction l with
  | nil => intro x y; simp [stampLoop, lastOr, tagged]
  | cons n ns ih =>
    intro x y
    by_cases h : n.tag = "time"
    · have ht : tagged "time" (n :: ns) = n :: tagged "time" ns := by simp [tagged, h]
      simp only [stampLoop, h, if_true, bind_ok, ih, ht, List.mem_cons, forall_eq_or_imp, lastOr_cons]
      constructor
      · rintro ⟨z, h1, h2, h3⟩
        exact ⟨⟨⟨z, h1⟩, h2⟩, by rw [h1]; exact h3⟩
      · rintro ⟨⟨⟨z, h1⟩, h2⟩, h3⟩
        exact ⟨z, h1, h2, by rw [h1] at h3; exact h3⟩
    · have ht : tagged "time" (n :: ns) = tagged "time" ns := by simp [tagged, h]
      simp only [stampLoop, h, if_false, ih, ht]

/-- The fields after reading the children `l`, starting from `s`. -/
structure Read {T : Type} (v : Env T) (t : Tables) (s : Vals T) (l : List Elem) (s' : Vals T) : Prop where
  protocol : s'.protocol = lastOr s.protocol Elem.text (tagged "protocol" l)
  source : lastOr (.ok s.source) (parseNode t) (tagged "source" l) = .ok s'.source
  destination : lastOr (.ok s.destination) (parseNode t) (tagged "destination" l) = .ok s'.destination
  created : lastOr (.ok s.created) (fun n => v.stamp n.text) (times "created" l) = .ok s'.created
  updated : lastOr (.ok s.updated) (fun n => v.stamp n.text) (times "updated" l) = .ok s'.updated
  log : s'.log = lastOr s.log (fun _ => true) (tagged "log" l)
  statetype : s'.statetype = lastOr s.statetype Elem.text (tagged "statetype" l)
  floating : s'.floating = lastOr s.floating Elem.text (tagged "floating" l)
  tracker : s'.tracker = lastOr s.tracker (fun c => some c.text) (tagged "tracker" l)
  type : s'.type = lastOr s.type (fun c => some c.text) (tagged "type" l)
  interface : s'.interface = lastOr s.interface (fun c => some c.text) (tagged "interface" l)
  direction : s'.direction = lastOr s.direction (fun c => some c.text) (tagged "direction" l)
  descr : s'.descr = lastOr s.descr (fun c => some (v.unesc (c.text.getD ""))) (tagged "descr" l)
  disabled : s'.disabled = lastOr s.disabled (fun _ => true) (tagged "disabled" l)
  icmp : s'.icmp = lastOr s.icmp (fun c => some c.text) (tagged "icmptype" l)

/-- A child the loop accepts. -/
structure RuleChild {T : Type} (v : Env T) (t : Tables) (c : Elem) : Prop where
  tag : c.tag ∈ ruleTags
  node : c.tag = "source" ∨ c.tag = "destination" → ∃ n, parseNode t c = .ok n
  stamp : c.tag = "created" ∨ c.tag = "updated" →
    ∀ x ∈ tagged "time" c.children, ∃ y, v.stamp x.text = .ok y

theorem ruleStep_read {T : Type} {v : Env T} {t : Tables} {s s' : Vals T} {c : Elem}
    (h : ruleStep v t s c = .ok s') : Read v t s [c] s' ∧ RuleChild v t c := by
  have simple : ∀ tag : String, c.tag = tag → tag ∈ ruleTags → tag ≠ "source" → tag ≠ "destination" →
      tag ≠ "created" → tag ≠ "updated" → RuleChild v t c := by
    intro tag h1 h2 h3 h4 h5 h6
    subst h1
    exact ⟨h2, by rintro (h | h) <;> contradiction, by rintro (h | h) <;> contradiction⟩
  unfold ruleStep at h
  by_cases hd : c.tag ∈ droppedTags
  · have : c.tag = "id" ∨ c.tag = "ipprotocol" ∨ c.tag = "tag" ∨ c.tag = "tagged" ∨ c.tag = "max" ∨
        c.tag = "max-src-nodes" ∨ c.tag = "max-src-conn" ∨ c.tag = "max-src-states" ∨
        c.tag = "statetimeout" ∨ c.tag = "os" := by simpa [droppedTags] using hd
    rcases this with h1 | h1 | h1 | h1 | h1 | h1 | h1 | h1 | h1 | h1 <;>
    · simp [h1, droppedTags] at h
      subst h
      exact ⟨by constructor <;> simp [lastOr, tagged, times, h1], simple _ h1 (by decide) (by decide) (by decide) (by decide) (by decide)⟩
  · rw [if_neg hd] at h
    by_cases hs : c.tag ∈ ruleTags
    case neg =>
      simp only [ruleTags, List.mem_cons, not_or] at hs
      simp [hs] at h
    have : c.tag = "tracker" ∨ c.tag = "type" ∨ c.tag = "interface" ∨ c.tag = "floating" ∨
        c.tag = "direction" ∨ c.tag = "quick" ∨ c.tag = "protocol" ∨ c.tag = "descr" ∨
        c.tag = "disabled" ∨ c.tag = "statetype" ∨ c.tag = "log" ∨ c.tag = "icmptype" ∨
        c.tag = "source" ∨ c.tag = "destination" ∨ c.tag = "created" ∨ c.tag = "updated" := by
      simp only [ruleTags, droppedTags, List.mem_cons, List.not_mem_nil, or_false, not_or] at hs hd
      simp only [hd, or_false] at hs
      grind
    rcases this with h1 | h1 | h1 | h1 | h1 | h1 | h1 | h1 | h1 | h1 | h1 | h1 | h1 | h1 | h1 | h1
    case inr.inr.inr.inr.inr.inr.inr.inr.inr.inr.inr.inr.inl =>
      simp [h1, bind_ok] at h
      obtain ⟨n, hn, rfl⟩ := h
      exact ⟨by constructor <;> simp [lastOr, tagged, times, h1, hn], hs, fun _ => ⟨n, hn⟩, by simp [h1]⟩
    case inr.inr.inr.inr.inr.inr.inr.inr.inr.inr.inr.inr.inr.inl =>
      simp [h1, bind_ok] at h
      obtain ⟨n, hn, rfl⟩ := h
      exact ⟨by constructor <;> simp [lastOr, tagged, times, h1, hn], hs, fun _ => ⟨n, hn⟩, by simp [h1]⟩
    case inr.inr.inr.inr.inr.inr.inr.inr.inr.inr.inr.inr.inr.inr.inl =>
      simp [h1, bind_ok] at h
      obtain ⟨n, hn, rfl⟩ := h
      obtain ⟨g1, g2⟩ := stampLoop_ok.1 hn
      have hc : times "created" [c] = tagged "time" c.children := by
        simp [times, tagged, h1]
      have hu : times "updated" [c] = [] := by simp [times, tagged, h1]
      refine ⟨?_, hs, by simp [h1], fun _ => g1⟩
      constructor <;> try simp [lastOr, tagged, h1]
      · rw [hc]; exact g2
      · rw [hu]; rfl
    case inr.inr.inr.inr.inr.inr.inr.inr.inr.inr.inr.inr.inr.inr.inr =>
      simp [h1, bind_ok] at h
      obtain ⟨n, hn, rfl⟩ := h
      obtain ⟨g1, g2⟩ := stampLoop_ok.1 hn
      have hc : times "updated" [c] = tagged "time" c.children := by
        simp [times, tagged, h1]
      have hu : times "created" [c] = [] := by simp [times, tagged, h1]
      refine ⟨?_, hs, by simp [h1], fun _ => g1⟩
      constructor <;> try simp [lastOr, tagged, h1]
      · rw [hu]; rfl
      · rw [hc]; exact g2
    all_goals
      simp [h1] at h
      subst h
      exact ⟨by constructor <;> simp [lastOr, tagged, times, h1], simple _ h1 (by decide) (by decide) (by decide) (by decide) (by decide)⟩

theorem ruleStep_accepts {T : Type} {v : Env T} {t : Tables} {c : Elem} (h : RuleChild v t c) (s : Vals T) :
    ∃ s', ruleStep v t s c = .ok s' := by
  have ht := h.tag
  simp only [ruleTags, List.mem_cons, List.not_mem_nil, or_false] at ht
  unfold ruleStep
  rcases ht with h1 | h1 | h1 | h1 | h1 | h1 | h1 | h1 | h1 | h1 | h1 | h1 | h1 | h1 | h1 | h1 | h1 |
    h1 | h1 | h1 | h1 | h1 | h1 | h1 | h1 | h1
  case inr.inr.inr.inr.inr.inr.inr.inr.inr.inr.inr.inl =>
    obtain ⟨n, hn⟩ := h.node (Or.inl h1)
    simp [h1, hn, bind, Except.bind]
  case inr.inr.inr.inr.inr.inr.inr.inr.inr.inr.inr.inr.inl =>
    obtain ⟨n, hn⟩ := h.node (Or.inr h1)
    simp [h1, hn, bind, Except.bind]
  case inr.inr.inr.inr.inr.inr.inr.inr.inr.inr.inr.inr.inr.inl =>
    have hg := h.stamp (Or.inl h1)
    obtain ⟨y, hy⟩ : ∃ y, lastOr (.ok s.created) (fun n => v.stamp n.text) (tagged "time" c.children) = .ok y := by
      unfold lastOr
      cases hl : (tagged "time" c.children).getLast? with
      | none => exact ⟨_, rfl⟩
      | some x => simpa using hg x (List.mem_of_getLast? hl)
    have := stampLoop_ok.2 ⟨hg, hy⟩
    simp [h1, this, bind, Except.bind]
  case inr.inr.inr.inr.inr.inr.inr.inr.inr.inr.inr.inr.inr.inr.inl =>
    have hg := h.stamp (Or.inr h1)
    obtain ⟨y, hy⟩ : ∃ y, lastOr (.ok s.updated) (fun n => v.stamp n.text) (tagged "time" c.children) = .ok y := by
      unfold lastOr
      cases hl : (tagged "time" c.children).getLast? with
      | none => exact ⟨_, rfl⟩
      | some x => simpa using hg x (List.mem_of_getLast? hl)
    have := stampLoop_ok.2 ⟨hg, hy⟩
    simp [h1, this, bind, Except.bind]
  all_goals simp [h1, droppedTags]

theorem Read.nil {T : Type} (v : Env T) (t : Tables) (s : Vals T) : Read v t s [] s := by
  constructor <;> rfl

theorem Read.trans {T : Type} {v : Env T} {t : Tables} {s s' s'' : Vals T} {l m : List Elem}
    (h : Read v t s l s') (g : Read v t s' m s'') : Read v t s (l ++ m) s'' := by
  constructor <;> simp only [tagged_append, times_append, lastOr_append]
  · rw [← h.protocol, g.protocol]
  · rw [h.source, g.source]
  · rw [h.destination, g.destination]
  · rw [h.created, g.created]
  · rw [h.updated, g.updated]
  · rw [← h.log, g.log]
  · rw [← h.statetype, g.statetype]
  · rw [← h.floating, g.floating]
  · rw [← h.tracker, g.tracker]
  · rw [← h.type, g.type]
  · rw [← h.interface, g.interface]
  · rw [← h.direction, g.direction]
  · rw [← h.descr, g.descr]
  · rw [← h.disabled, g.disabled]
  · rw [← h.icmp, g.icmp]

theorem ruleLoop_read {T : Type} {v : Env T} {t : Tables} {l : List Elem} : ∀ {s s' : Vals T},
    ruleLoop v t s l = .ok s' → Read v t s l s' ∧ ∀ c ∈ l, RuleChild v t c := by
  induction l with
  | nil => intro s s' h; cases h; exact ⟨Read.nil .., by simp⟩
  | cons c cs ih =>
    intro s s' h
    simp only [ruleLoop, bind_ok] at h
    obtain ⟨s1, h1, h2⟩ := h
    obtain ⟨g1, g2⟩ := ruleStep_read h1
    obtain ⟨g3, g4⟩ := ih h2
    exact ⟨g1.trans g3, by simpa using ⟨g2, g4⟩⟩

theorem ruleLoop_accepts {T : Type} {v : Env T} {t : Tables} {l : List Elem}
    (h : ∀ c ∈ l, RuleChild v t c) : ∀ s : Vals T, ∃ s', ruleLoop v t s l = .ok s' := by
  induction l with
  | nil => intro s; exact ⟨s, rfl⟩
  | cons c cs ih =>
    intro s
    obtain ⟨s1, h1⟩ := ruleStep_accepts (h c (by simp)) s
    obtain ⟨s2, h2⟩ := ih (fun c hc => h c (by simp [hc])) s1
    exact ⟨s2, by simp only [ruleLoop, bind_ok]; exact ⟨s1, h1, h2⟩⟩

/-! ## the end of a rule -/

/-- The values of a finished rule. -/
structure Finished {T : Type} (t : Tables) (s : Vals T) (r : PfRule T) : Prop where
  mode : ∃ ty, s.type = some ty ∧ r.mode = if ty = some "pass" then "permit" else "deny"
  protocol : r.protocol = s.protocol
  src : r.src = s.source
  dst : r.dst = s.destination
  descr : s.descr = some r.descr
  created : r.created = s.created
  updated : r.updated = s.updated
  icmp : r.icmp = s.icmp
  head : r.head = none
  xref : dGet r.options "xref" = some (.xref s.tracker)
  inactive : dGet r.options "inactive" = if s.disabled then some .inactive else none
  log : dGet r.options "log" = if s.log then some .log else none
  statetype : dGet r.options "statetype" =
    if s.statetype = some "keep state" then none else some (.statetype s.statetype)
  floating : if s.floating = some "yes" then
      r.id = some "floating" ∧ ∃ i d, s.interface = some (some i) ∧ s.direction = some d ∧
        dGet r.options "floating" = some (.floating ((splitOn ',' i.toList).map (fun n => t.mapped (String.ofList n))) d)
    else dGet r.options "floating" = none ∧ ∃ i, s.interface = some i ∧ r.id = i.map t.mapped
  others : ∀ k, k ∉ ["xref", "inactive", "log", "statetype", "floating"] → dGet r.options k = none

theorem finishRule_ok {T : Type} {t : Tables} {s : Vals T} {r : PfRule T}
    (h : finishRule t s = .ok r) : Finished t s r := by
  unfold finishRule at h
  rw [bind_ok] at h
  obtain ⟨⟨iface, o1⟩, h1, h2⟩ := h
  cases hty : s.type with
  | none => rw [hty] at h2; cases h2
  | some ty =>
    cases hde : s.descr with
    | none => rw [hty, hde] at h2; cases h2
    | some d =>
      rw [hty, hde] at h2
      simp only [Except.ok.injEq] at h2
      by_cases hf : s.floating = some "yes"
      · simp only [hf, if_true] at h1
        split at h1
        · cases h1
        · cases h1
        · rename_i i hi
          split at h1
          · cases h1
          · rename_i dir hdir
            cases h1
            subst h2
            constructor <;> simp only [hty, hde, hf, if_true]
            case mode => exact ⟨ty, rfl, rfl⟩
            case floating => exact ⟨trivial, i, dir, hi, hdir, by
              cases s.disabled <;> cases s.log <;> by_cases hst : s.statetype = some "keep state" <;>
                simp [dGet_dSet, hst, dGet]⟩
            case others =>
              intro k hk
              simp only [List.mem_cons, List.not_mem_nil, or_false, not_or] at hk
              cases s.disabled <;> cases s.log <;> by_cases hst : s.statetype = some "keep state" <;>
                simp [dGet_dSet, hst, dGet, hk, Ne.symm hk.1]
            all_goals
              cases s.disabled <;> cases s.log <;> by_cases hst : s.statetype = some "keep state" <;>
                simp [dGet_dSet, hst, dGet]
      · simp only [hf, if_false] at h1
        split at h1
        · cases h1
        · rename_i i hi
          cases h1
          subst h2
          constructor <;> simp only [hty, hde, hf, if_false]
          case mode => exact ⟨ty, rfl, rfl⟩
          case floating => exact ⟨by
              cases s.disabled <;> cases s.log <;> by_cases hst : s.statetype = some "keep state" <;>
                simp [dGet_dSet, hst, dGet], i, hi, rfl⟩
          case others =>
            intro k hk
            simp only [List.mem_cons, List.not_mem_nil, or_false, not_or] at hk
            cases s.disabled <;> cases s.log <;> by_cases hst : s.statetype = some "keep state" <;>
              simp [dGet_dSet, hst, dGet, hk, Ne.symm hk.1]
          all_goals
            cases s.disabled <;> cases s.log <;> by_cases hst : s.statetype = some "keep state" <;>
              simp [dGet_dSet, hst, dGet]

theorem finishRule_accepts {T : Type} {t : Tables} {s : Vals T} :
    (∃ r, finishRule t s = .ok r) ↔ s.type ≠ none ∧ s.descr ≠ none ∧ s.interface ≠ none ∧
      (s.floating = some "yes" → s.direction ≠ none ∧ s.interface ≠ some none) := by
  constructor
  · rintro ⟨r, h⟩
    have f := finishRule_ok h
    refine ⟨?_, by rw [f.descr]; simp, ?_, ?_⟩
    · obtain ⟨ty, h1, -⟩ := f.mode; simp [h1]
    · have := f.floating
      split at this
      · obtain ⟨-, i, d, h1, -⟩ := this; simp [h1]
      · obtain ⟨-, i, h1, -⟩ := this; simp [h1]
    · intro hf
      have := f.floating
      rw [if_pos hf] at this
      obtain ⟨-, i, d, h1, h2, -⟩ := this
      simp [h1, h2]
  · rintro ⟨h1, h2, h3, h4⟩
    obtain ⟨ty, h1⟩ := Option.ne_none_iff_exists'.1 h1
    obtain ⟨de, h2⟩ := Option.ne_none_iff_exists'.1 h2
    obtain ⟨i, h3⟩ := Option.ne_none_iff_exists'.1 h3
    unfold finishRule
    simp only [bind_ok]
    by_cases hf : s.floating = some "yes"
    · obtain ⟨h5, h6⟩ := h4 hf
      obtain ⟨d, h5⟩ := Option.ne_none_iff_exists'.1 h5
      rw [h3] at h6
      cases i with
      | none => exact absurd rfl h6
      | some i => simp [hf, h3, h5, h1, h2]
    · simp [hf, h3, h1, h2]

/-! ## C47 -/

theorem lastOr_tagged {β : Type} (d : β) (f : Elem → β) (e : Elem) (tag : String) :
    lastOr d f (tagged tag e.children) = ((lastChild e tag).map f).getD d := rfl

theorem lastChild_none {e : Elem} {tag : String} : lastChild e tag = none ↔ ¬ HasChild e tag := by
  simp [lastChild, HasChild]

theorem lastChild_some {e c : Elem} {tag : String} (h : lastChild e tag = some c) :
    c ∈ e.children ∧ c.tag = tag := by
  have := List.mem_filter.1 (List.mem_of_getLast? h)
  exact ⟨this.1, by simpa using this.2⟩

/-- **C47.** An accepted rule permits iff its type is `pass`, and denies otherwise; a missing source or
destination means any, a present one means what its children say; the protocol is `any` if none is
given; the options are exactly: the tracker always, `inactive` iff there is a `disabled` child, `log`
iff there is a `log` child, `statetype` iff one other than `keep state` is given, and `floating` iff
the rule is a floating rule, with its interfaces and direction; a floating rule belongs to the list
`floating`, any other one to the list of its interface. -/
theorem C47_rule {T : Type} (v : Env T) (t : Tables) (e : Elem) (r : PfRule T)
    (h : parseRule v t e = .ok r) :
    (∃ c, lastChild e "type" = some c ∧
      (r.mode = "permit" ↔ c.text = some "pass") ∧ (r.mode = "deny" ↔ c.text ≠ some "pass")) ∧
    (lastChild e "source" = none → r.src = ⟨.any, none⟩) ∧
    (∀ c, lastChild e "source" = some c → NodeMeans t c r.src) ∧
    (lastChild e "destination" = none → r.dst = ⟨.any, none⟩) ∧
    (∀ c, lastChild e "destination" = some c → NodeMeans t c r.dst) ∧
    r.protocol = ((lastChild e "protocol").map Elem.text).getD (some "any") ∧
    (∃ c, lastChild e "descr" = some c ∧ r.descr = v.unesc (c.text.getD "")) ∧
    r.icmp = (lastChild e "icmptype").map Elem.text ∧
    dGet r.options "xref" = some (.xref ((lastChild e "tracker").map Elem.text)) ∧
    (HasChild e "disabled" → dGet r.options "inactive" = some .inactive) ∧
    (¬ HasChild e "disabled" → dGet r.options "inactive" = none) ∧
    (HasChild e "log" → dGet r.options "log" = some .log) ∧
    (¬ HasChild e "log" → dGet r.options "log" = none) ∧
    (∀ c, lastChild e "statetype" = some c → c.text ≠ some "keep state" →
      dGet r.options "statetype" = some (.statetype c.text)) ∧
    ((∀ c, lastChild e "statetype" = some c → c.text = some "keep state") →
      dGet r.options "statetype" = none) ∧
    (Floating e → r.id = some "floating" ∧ ∃ i d s, lastChild e "interface" = some i ∧ i.text = some s ∧
      lastChild e "direction" = some d ∧ dGet r.options "floating" =
        some (.floating ((splitOn ',' s.toList).map (fun n => t.mapped (String.ofList n))) d.text)) ∧
    (¬ Floating e → dGet r.options "floating" = none ∧
      ∃ i, lastChild e "interface" = some i ∧ r.id = i.text.map t.mapped) ∧
    (∀ k, k ∉ ["xref", "inactive", "log", "statetype", "floating"] → dGet r.options k = none) := by
  unfold parseRule at h
  rw [bind_ok] at h
  obtain ⟨s, h1, h2⟩ := h
  obtain ⟨R, hch⟩ := ruleLoop_read h1
  have F := finishRule_ok h2
  have some_of {α : Type} {f : Elem → α} {tag : String} {x : α}
      (hx : ((lastChild e tag).map (fun c => some (f c))).getD none = some x) :
      ∃ c, lastChild e tag = some c ∧ f c = x := by
    cases hc : lastChild e tag with
    | none => rw [hc] at hx; simp at hx
    | some c => rw [hc] at hx; exact ⟨c, rfl, by simpa using hx⟩
  have hfl : s.floating = some "yes" ↔ Floating e := by
    rw [R.floating, lastOr_tagged]
    unfold Floating
    cases hc : lastChild e "floating" with
    | none => simp
    | some c => simp
  refine ⟨?_, ?_, ?_, ?_, ?_, ?_, ?_, ?_, ?_, ?_, ?_, ?_, ?_, ?_, ?_, ?_, ?_, F.others⟩
  · obtain ⟨ty, g1, g2⟩ := F.mode
    rw [R.type, lastOr_tagged] at g1
    obtain ⟨c, g3, rfl⟩ := some_of g1
    refine ⟨c, g3, ?_⟩
    rw [g2]
    by_cases hp : c.text = some "pass" <;> simp [hp]
  · intro hn
    have := R.source
    rw [lastOr_tagged, hn] at this
    rw [F.src]; simpa using this.symm
  · intro c hc
    have := R.source
    rw [lastOr_tagged, hc] at this
    rw [F.src]; exact parseNode_means this
  · intro hn
    have := R.destination
    rw [lastOr_tagged, hn] at this
    rw [F.dst]; simpa using this.symm
  · intro c hc
    have := R.destination
    rw [lastOr_tagged, hc] at this
    rw [F.dst]; exact parseNode_means this
  · rw [F.protocol, R.protocol, lastOr_tagged]
  · have := F.descr
    rw [R.descr, lastOr_tagged] at this
    obtain ⟨c, g3, g4⟩ := some_of this
    exact ⟨c, g3, g4.symm⟩
  · rw [F.icmp, R.icmp, lastOr_tagged]
    cases lastChild e "icmptype" <;> rfl
  · rw [F.xref, R.tracker, lastOr_tagged]
    cases lastChild e "tracker" <;> rfl
  · intro hh
    rw [F.inactive, R.disabled, lastOr_tagged]
    cases hc : lastChild e "disabled" with
    | none => exact absurd hh (lastChild_none.1 hc)
    | some c => rfl
  · intro hh
    rw [F.inactive, R.disabled, lastOr_tagged, lastChild_none.2 hh]; rfl
  · intro hh
    rw [F.log, R.log, lastOr_tagged]
    cases hc : lastChild e "log" with
    | none => exact absurd hh (lastChild_none.1 hc)
    | some c => rfl
  · intro hh
    rw [F.log, R.log, lastOr_tagged, lastChild_none.2 hh]; rfl
  · intro c hc hne
    rw [F.statetype, R.statetype, lastOr_tagged, hc]
    simp [hne]
  · intro hh
    rw [F.statetype, R.statetype, lastOr_tagged]
    cases hc : lastChild e "statetype" with
    | none => rfl
    | some c => simp [hh c hc]
  · intro hf
    have := F.floating
    rw [if_pos (hfl.2 hf)] at this
    obtain ⟨g1, i, d, g2, g3, g4⟩ := this
    rw [R.interface, lastOr_tagged] at g2
    rw [R.direction, lastOr_tagged] at g3
    obtain ⟨ci, k1, k2⟩ := some_of g2
    obtain ⟨cd, k3, rfl⟩ := some_of g3
    exact ⟨g1, ci, cd, i, k1, k2, k3, g4⟩
  · intro hf
    have := F.floating
    rw [if_neg (fun hh => hf (hfl.1 hh))] at this
    obtain ⟨g1, i, g2, g3⟩ := this
    rw [R.interface, lastOr_tagged] at g2
    obtain ⟨ci, k1, rfl⟩ := some_of g2
    exact ⟨g1, ci, k1, g3⟩

/-- **C47 (acceptance).** A rule element is accepted iff it is well formed; in particular unknown
elements, unreadable addresses and missing parts are rejected. -/
theorem C47_accepted_iff {T : Type} (v : Env T) (t : Tables) (e : Elem) :
    (∃ r, parseRule v t e = .ok r) ↔ WellFormedRule v t e := by
  have hadd {α : Type} {f : Elem → α} {tag : String} :
      ((lastChild e tag).map (fun c => some (f c))).getD none ≠ none ↔ HasChild e tag := by
    cases hc : lastChild e tag with
    | none => simp [lastChild_none.1 hc]
    | some c => simpa using ⟨c, lastChild_some hc⟩
  constructor
  · rintro ⟨r, h⟩
    unfold parseRule at h
    rw [bind_ok] at h
    obtain ⟨s, h1, h2⟩ := h
    obtain ⟨R, hch⟩ := ruleLoop_read h1
    obtain ⟨g1, g2, g3, g4⟩ := finishRule_accepts.1 ⟨r, h2⟩
    rw [R.type, lastOr_tagged] at g1
    rw [R.descr, lastOr_tagged] at g2
    rw [R.interface, lastOr_tagged] at g3
    refine ⟨fun c hc => (hch c hc).tag, ?_, ?_, hadd.1 g1, hadd.1 g2, hadd.1 g3, ?_⟩
    · intro c hc ht
      obtain ⟨n, hn⟩ := (hch c hc).node ht
      exact ⟨n, parseNode_means hn⟩
    · intro c hc ht x hx htx
      exact (hch c hc).stamp ht x (by simp [tagged, hx, htx])
    · rintro ⟨c, hc, hy⟩
      have hf : s.floating = some "yes" := by
        rw [R.floating, lastOr_tagged, hc]; simp [hy]
      obtain ⟨k1, k2⟩ := g4 hf
      rw [R.direction, lastOr_tagged] at k1
      rw [R.interface, lastOr_tagged] at k2
      refine ⟨hadd.1 k1, ?_⟩
      cases hi : lastChild e "interface" with
      | none => rw [hi] at g3; exact absurd rfl g3
      | some i =>
        rw [hi] at k2
        cases ht : i.text with
        | none => rw [Option.map_some, Option.getD_some, ht] at k2; exact absurd rfl k2
        | some x => exact ⟨i, x, rfl, ht⟩
  · intro w
    have hch : ∀ c ∈ e.children, RuleChild v t c := by
      intro c hc
      refine ⟨w.tags c hc, ?_, ?_⟩
      · intro ht
        obtain ⟨n, hn⟩ := w.nodes c hc ht
        exact parseNode_accepts hn
      · intro ht x hx
        simp only [tagged, List.mem_filter, beq_iff_eq] at hx
        exact w.stamps c hc ht x hx.1 hx.2
    obtain ⟨s, hs⟩ := ruleLoop_accepts hch { created := v.now, updated := v.now }
    obtain ⟨R, -⟩ := ruleLoop_read hs
    have : ∃ r, finishRule t s = .ok r := by
      rw [finishRule_accepts, R.type, R.descr, R.interface, R.direction, R.floating]
      simp only [lastOr_tagged]
      refine ⟨hadd.2 w.type, hadd.2 w.descr, hadd.2 w.interface, ?_⟩
      intro hf
      have : Floating e := by
        cases hc : lastChild e "floating" with
        | none => rw [hc] at hf; simp at hf
        | some c => rw [hc] at hf; exact ⟨c, hc, by simpa using hf⟩
      obtain ⟨k1, i, x, k2, k3⟩ := w.floating this
      refine ⟨hadd.2 k1, ?_⟩
      rw [k2]; simp [k3]
    obtain ⟨r, hr⟩ := this
    exact ⟨r, by unfold parseRule; rw [bind_ok]; exact ⟨s, hs, hr⟩⟩

/-- An environment for the samples: nothing is escaped, time stamps are zero. -/
def sampleEnv : Env Nat where
  unesc := id
  stamp := fun _ => .ok 0
  now := 1
  fetch := false
  url := fun _ => none

/-- Tables with an alias and an interface. -/
def sampleTables : Tables where
  nets := [(some "web", .group "web" [.host ⟨.v4, 1⟩])]
  ports := []
  ifaces := [("lan", { alias := "lan" })]
  ifmap := [("opt1", "DMZ")]

/-- A leaf element. -/
def leaf (tag : String) (text : Option String) : Elem := .mk tag text []

/-- A disabled, logged rule of an optional interface. -/
def sampleRule : Elem := .mk "rule" none
  [leaf "type" (some "block"), leaf "type" (some "pass"), leaf "interface" (some "opt1"),
   leaf "descr" none, leaf "disabled" none, leaf "log" none, leaf "os" none,
   .mk "source" none [leaf "network" (some "lan"), leaf "port" (some "1024-2048")],
   .mk "destination" none [leaf "address" (some "web"), leaf "port" (some "443")],
   .mk "created" none [leaf "time" (some "7"), leaf "username" (some "x")]]

/-- The sample is accepted, so the hypotheses of C47 are met. -/
theorem C47_sample : ∃ r, parseRule sampleEnv sampleTables sampleRule = .ok r ∧ r.mode = "permit" ∧
    r.id = some "DMZ" ∧ r.src.host = .iface "lan" ∧
    r.dst.host = .group "web" [.host ⟨.v4, 1⟩] := by
  exact ⟨_, rfl, rfl, rfl, rfl, rfl⟩

end Acltk.Pf
