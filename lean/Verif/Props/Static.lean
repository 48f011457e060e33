import Verif.Model.Static
import Verif.Props.Web
import Verif.Props.PageConfig
import Verif.Props.PageSort
/-!
# C104: what examples/render/static.py writes
-/
namespace Acltk.Static
open Acltk Acltk.Lookup Acltk.Detect Acltk.DetectText Acltk.Caf Acltk.Resolve Acltk.ExpandFilter Acltk.Web
open Acltk.Accepted (RuleAt NatAt HoldsCfg InUse listOf)
open Acltk.ConfigFilter (select)
open Acltk.Page (WellFormed Completes Shown NotSelected Number expected Listed ToSort SortedBy)
open Acltk.FileText (Holds)

variable {T : Type}

theorem place_ruleOf (n : Nat) (i : Config.Item) : Config.ruleOf (place n i) = Config.ruleOf i := by
  unfold place; split <;> rfl

theorem place_natOf (n : Nat) (i : Config.Item) : Config.natOf (place n i) = Config.natOf i := by
  unfold place; split <;> rfl

theorem filterMap_map_of {α β : Type} (f : α → Option β) (g : α → α) (h : ∀ a, f (g a) = f a) (l : List α) : (l.map g).filterMap f = l.filterMap f := by
  rw [List.filterMap_map]
  exact congrArg (fun k => l.filterMap k) (funext h)

theorem shift_rulesIn (r : Nat) (i : Config.Item) : Config.rulesIn (shift r i) = Config.rulesIn i := by
  unfold shift; split <;> rfl

theorem shift_natOf (r : Nat) (i : Config.Item) : Config.natOf (shift r i) = Config.natOf i := by
  unfold shift; split <;> first | rfl | skip
  rename_i x; cases x <;> rfl

theorem tables_rules (c : Conf T) : (tables c).rules = (ids c).1 := by
  cases c with
  | fwsm items =>
    show (Config.build _ _ _).rules = (Config.build _ _ _).rules
    rw [Config.C35_rules_in_file_order, Config.C35_rules_in_file_order]
    exact filterMap_map_of _ _ (place_ruleOf _) _
  | ios items =>
    show (Config.buildIos (IosConfig.agName items) (fun _ => []) (fun _ => []) (iosLinked items)).base.rules = (IosConfig.build items).base.rules
    unfold IosConfig.build
    rw [Config.C35_ios_rules_in_file_order, Config.C35_ios_rules_in_file_order]
    unfold iosLinked
    rw [List.flatMap_map]
    exact congrArg (fun k => List.flatMap k _) (funext fun i => shift_rulesIn _ i)
  | pfsense => rfl

theorem tables_nat (c : Conf T) : (tables c).nat = (ids c).2.1 ++ (ids c).2.2.1 ++ (ids c).2.2.2 := by
  cases c with
  | fwsm items =>
    show (Config.build _ _ _).nat1 ++ (Config.build _ _ _).nat2 ++ (Config.build _ _ _).nat3 =
      (Config.build _ _ _).nat1 ++ (Config.build _ _ _).nat2 ++ (Config.build _ _ _).nat3
    have h : ∀ m, Config.natSection m ((CafFilter.number 0 items).map (place items.length)) = Config.natSection m (CafFilter.number 0 items) := by
      intro m
      unfold Config.natSection
      rw [filterMap_map_of _ _ (place_natOf _)]
    obtain ⟨h1, h2, h3, -⟩ := Config.C38_nat_sections (CafFilter.agName items) (fun _ => []) ((CafFilter.number 0 items).map (place items.length))
    obtain ⟨k1, k2, k3, -⟩ := Config.C38_nat_sections (CafFilter.agName items) (fun _ => []) (CafFilter.number 0 items)
    rw [h1, h2, h3, k1, k2, k3, h, h, h]
  | ios items =>
    show (Config.build _ _ _).nat1 ++ (Config.build _ _ _).nat2 ++ (Config.build _ _ _).nat3 =
      (Config.build _ _ _).nat1 ++ (Config.build _ _ _).nat2 ++ (Config.build _ _ _).nat3
    have h : ∀ m, Config.natSection m (iosLinked items) = Config.natSection m (IosConfig.number 0 0 [] items) := by
      intro m
      unfold Config.natSection iosLinked
      rw [filterMap_map_of _ _ (shift_natOf _)]
    obtain ⟨h1, h2, h3, -⟩ := Config.C38_nat_sections (IosConfig.agName items) (fun _ => []) (iosLinked items)
    obtain ⟨k1, k2, k3, -⟩ := Config.C38_nat_sections (IosConfig.agName items) (IosConfig.ifAg items) (IosConfig.number 0 0 [] items)
    rw [h1, h2, h3, k1, k2, k3, h, h, h]
  | pfsense => rfl

theorem number_sorted (items : List FwsmText.Item) : ∀ k, ((CafFilter.number k items).filterMap Config.ruleOf).Pairwise (· < ·) := by
  induction items with
  | nil => intro k; exact List.Pairwise.nil
  | cons i is ih =>
    intro k
    have hl : Config.ruleOf (CafFilter.link k i) = match i with | .rule _ => some k | _ => none := by cases i <;> rfl
    rw [CafFilter.number, List.filterMap_cons, hl]
    have hlt : ∀ o ∈ (CafFilter.number (k + 1) is).filterMap Config.ruleOf, k < o := by
      intro o ho
      have := ((CafFilter.number_rules is (k + 1) o).1 ho).1
      omega
    cases i <;> first | exact List.pairwise_cons.2 ⟨hlt, ih (k + 1)⟩ | exact ih (k + 1)

/-- The rules of an accepted configuration, in the order of the file, are those it states. -/
theorem rules_of (g : Guard) (xml : String → Option Pf.Elem) (v : Pf.Env T) (config : String) (c : Conf T)
    (hc : detect g (PfFilter.parser xml v) config = .config c) :
    (∀ o, o ∈ (tables c).rules ↔ ∃ x, RuleAt c o x) ∧ (∀ o, o ∈ (tables c).nat ↔ ∃ x, NatAt c o x) ∧
      (tables c).rules.Pairwise (· < ·) := by
  obtain ⟨L, -⟩ := Accepted.loaded g xml v config c hc
  refine ⟨fun o => by rw [tables_rules]; exact L.rules o, fun o => by rw [tables_nat]; exact L.nats o, ?_⟩
  rw [tables_rules]
  cases c with
  | fwsm items =>
    show (Config.build (CafFilter.agName items) (fun _ => []) (CafFilter.number 0 items)).rules.Pairwise (· < ·)
    rw [Config.C35_rules_in_file_order]
    exact number_sorted items 0
  | ios items =>
    obtain ⟨u, hp⟩ := Accepted.detect_inv hc
    show (IosConfig.build items).base.rules.Pairwise (· < ·)
    rw [IosConfig.build_rules items (Accepted.ios_noBase (IosText.parseFile_items hp))]
    exact List.pairwise_lt_range
  | pfsense c =>
    show (PfFilter.build c.1 c.2).rules.Pairwise (· < ·)
    rw [PfFilter.rules_build]
    exact List.pairwise_lt_range

/-- Some group that is to be sorted has a member without a key. -/
def NoKey (K : Page.Keys) (objs : Oid → Page.Obj) (tb : Page.Tables) : Prop :=
  ∃ o c n l x, ToSort tb o ∧ objs o = .group c n l ∧ x ∈ l ∧ ∀ k, K.key c x ≠ .ok k

/-- What a page shows of the configuration `c` with the objects `objs` when `sel` are the rules and NAT entries that are selected (`none`: there is no filter),
and `sns` says that the others are shown as well. -/
structure Shows (s : Site T) (c : Conf T) (objs : Oid → Page.Obj) (sel : Option (List Oid)) (sns : Bool) (w : Written) : Prop where
  /-- rules: in the order of the configuration, those selected, with their numbers, and below the head of their list -/
  rows : ∃ r, (∀ l, sel = some l → ∃ r', r = some r' ∧ ∀ x, x ∈ r' ↔ Closure (Page.info objs) (l.map .obj) x) ∧ (sel = none → r = none) ∧
    (∀ o, o ∈ (tables c).rules ∨ o ∈ (tables c).nat → (Shown r sns (.obj o) ↔ ∀ l, sel = some l → o ∈ l ∨ sns = true)) ∧
    (∀ o, o ∈ (tables c).rules ∨ o ∈ (tables c).nat → (NotSelected r (.obj o) ↔ ∃ l, sel = some l ∧ o ∉ l)) ∧
    (∃ (list : Oid → Option String) (num : Nat → Nat × Nat), (∀ o id p sh sp dh dp ic os, objs o = .rule id p sh sp dh dp ic os → list o = id) ∧
      (∀ k, k < (tables c).rules.length → Number ((tables c).rules.map list) k (num k).1 (num k).2) ∧
      w.rows = (tables c).rules.zipIdx.flatMap (expected list (s.inactive c) r sns ((tables c).rules.map list) num)) ∧
    w.nat = (tables c).nat.filter (fun o => decide (Shown r sns (.obj o))) ∧
    ∀ t, t ≠ .interface → ∀ n o g, ⟨n, o, g⟩ ∈ w.sections t ↔
      Listed objs (tables c) t n o ∧ Shown r sns (.obj o) ∧ g = decide (NotSelected r (.obj o))

/-- The members are those of the configuration, sorted with `--sort`. -/
def Members (K : Page.Keys) (objs : Oid → Page.Obj) (tb : Page.Tables) (sort : Bool) (objs' : Oid → Page.Obj) : Prop :=
  if sort then
    (∀ o, ToSort tb o → ∃ c n l out, objs o = .group c n l ∧ objs' o = .group c n out ∧ SortedBy K c l out) ∧
    ∀ o, ¬ ToSort tb o → objs' o = objs o
  else objs' = objs

/-- A selected rule or NAT entry is in the completed selection, no other is. -/
theorem closure_chosen {heap : Oid → Page.Obj} {tb : Page.Tables} (W : WellFormed heap tb) {chosen : List Oid}
    (hc : ∀ o ∈ chosen, o ∈ tb.rules ∨ o ∈ tb.nat) {o : Oid} (ho : o ∈ tb.rules ∨ o ∈ tb.nat) :
    Closure (Page.info heap) (chosen.map .obj) (.obj o) ↔ o ∈ chosen := by
  constructor
  · intro h
    rcases Page.closure_objects W hc h o rfl with h | h | ⟨h, -⟩
    · exact h
    · exact absurd ho (by have := W.fresh o h; exact fun h => h.elim this.1 this.2)
    · obtain ⟨m, e⟩ := W.names o h
      rcases ho with ho | ho
      · obtain ⟨_, _, _, _, _, _, _, _, e'⟩ := W.rules o ho; rw [e'] at e; cases e
      · obtain ⟨_, _, e'⟩ := W.nat o ho; rw [e'] at e; cases e
  · exact fun h => .selected (List.mem_map.2 ⟨o, h, rfl⟩)

/-- The page, from the completed selection. -/
theorem render_shows {s : Site T} {args : Args} {c : Conf T} {objs : Oid → Page.Obj} (W : WellFormed objs (tables c)) {sel : Option (List Oid)} {r : Page.Sel}
    (hsel : ∀ l, sel = some l → (∀ o ∈ l, o ∈ (tables c).rules ∨ o ∈ (tables c).nat) ∧
      ∃ r', r = some r' ∧ ∀ x, x ∈ r' ↔ Closure (Page.info objs) (l.map .obj) x)
    (hnone : sel = none → r = none) : Shows s c objs sel args.sns (render s args c r objs) := by
  have hcomp : Completes objs (tables c) (sel.getD []) r := by
    cases sel with
    | none => rw [hnone rfl]; exact ⟨by simp, by intro r h; cases h⟩
    | some l =>
      obtain ⟨h1, r', rfl, h2⟩ := hsel l rfl
      refine ⟨h1, ?_⟩
      intro q e
      cases e
      exact h2
  refine ⟨r, fun l hl => (hsel l hl).2, hnone, ?_, ?_, ?_, ?_, ?_⟩
  · intro o ho
    cases sel with
    | none => rw [hnone rfl]; constructor <;> (intro _ _ h; cases h)
    | some l =>
      obtain ⟨h1, r', rfl, h2⟩ := hsel l rfl
      constructor
      · rintro h l' e
        cases e
        exact (h r' rfl).imp (fun h => (closure_chosen W h1 ho).1 ((h2 _).1 h)) id
      · rintro h q e
        cases e
        exact (h l rfl).imp (fun h => (h2 _).2 ((closure_chosen W h1 ho).2 h)) id
  · intro o ho
    cases sel with
    | none =>
      rw [hnone rfl]
      constructor
      · rintro ⟨_, h, -⟩; cases h
      · rintro ⟨_, h, -⟩; cases h
    | some l =>
      obtain ⟨h1, r', rfl, h2⟩ := hsel l rfl
      constructor
      · rintro ⟨q, e, h⟩
        cases e
        exact ⟨l, rfl, fun hm => h ((h2 _).2 ((closure_chosen W h1 ho).2 hm))⟩
      · rintro ⟨q, e, h⟩
        cases e
        exact ⟨r', rfl, fun hm => h ((closure_chosen W h1 ho).1 ((h2 _).1 hm))⟩
  · obtain ⟨num, h1, h2⟩ := Page.C100_rows (idOf objs) (s.inactive c) (tables c).rules
    refine ⟨idOf objs, num, ?_, h1, h2 r args.sns⟩
    intro o id p sh sp dh dp ic os e
    unfold idOf
    rw [e]
  · exact Page.C101_nat objs (tables c) W _ r hcomp args.sns
  · intro t ht
    exact (Page.C101_sections s.lower objs (tables c) W _ r hcomp args.sns t ht).1

/-- What is left to do when the selection is there. -/
theorem finish_shows {s : Site T} {args : Args} {file : List UInt8} {c : Conf T} (hc : FileText.configFromFile s.guard (PfFilter.parser s.xml s.env) file = .config c)
    {heap : Oid → Entry} (hh : (if args.expand then s.expand c else .ok (heapOf c)) = .ok heap) {r : Page.Sel} (hr : selection s args heap c = some (.ok r))
    (W : WellFormed (s.objs args.expand c) (tables c)) (hK : (s.keys args.expand c).Total) {sel : Option (List Oid)}
    (hsel : ∀ l, sel = some l → (∀ o ∈ l, o ∈ (tables c).rules ∨ o ∈ (tables c).nat) ∧
      ∃ r', r = some r' ∧ ∀ x, x ∈ r' ↔ Closure (Page.info (s.objs args.expand c)) (l.map .obj) x)
    (hnone : sel = none → r = none) :
    (main s args file = .raises ∧ args.sort = true ∧ NoKey (s.keys args.expand c) (s.objs args.expand c) (tables c)) ∨
    ((args.sort = true → ¬ NoKey (s.keys args.expand c) (s.objs args.expand c) (tables c)) ∧ ∃ w, main s args file = .written w ∧
      Members (s.keys args.expand c) (s.objs args.expand c) (tables c) args.sort w.objs ∧ Shows s c w.objs sel args.sns w) := by
  have hm : main s args file = finish s args c r := by
    unfold main
    simp only [hc, hh, hr]
  unfold finish at hm
  cases hs : args.sort with
  | false =>
    rw [hs] at hm
    refine Or.inr ⟨by simp, _, hm, rfl, ?_⟩
    exact render_shows W hsel hnone
  | true =>
    rw [hs] at hm
    have key : (∀ o, ToSort (tables c) o → ∀ cc n l, s.objs args.expand c o = .group cc n l → ∀ x ∈ l, ∃ k, (s.keys args.expand c).key cc x = .ok k) ↔
        ¬ NoKey (s.keys args.expand c) (s.objs args.expand c) (tables c) := by
      constructor
      · rintro h ⟨o, cc, n, l, x, h1, h2, h3, h4⟩
        obtain ⟨k, hk⟩ := h o h1 cc n l h2 x h3
        exact h4 k hk
      · intro h o h1 cc n l h2 x h3
        refine Classical.byContradiction fun hk => h ⟨o, cc, n, l, x, h1, h2, h3, fun k e => hk ⟨k, e⟩⟩
    have hiff := Page.C103_succeeds_iff _ hK _ _ W
    rw [key] at hiff
    cases hsort : Page.sortAll (s.keys args.expand c) (s.objs args.expand c) (tables c) with
    | mk objs' res =>
      cases res with
      | error e =>
        rw [hsort] at hm
        refine Or.inl ⟨hm, rfl, Classical.byContradiction fun hk => ?_⟩
        obtain ⟨h', e'⟩ := hiff.2 hk
        rw [hsort] at e'
        cases e'
      | ok u =>
        cases u
        rw [hsort] at hm
        obtain ⟨h1, h2, h3, h4, h5, -⟩ := Page.C103_sorted _ hK _ _ _ W hsort
        refine Or.inr ⟨fun _ => hiff.1 ⟨objs', hsort⟩, _, hm, ⟨h1, h2⟩, ?_⟩
        refine render_shows h3 (fun l hl => ?_) hnone
        obtain ⟨i1, r', rfl, i2⟩ := hsel l hl
        refine ⟨i1, r', rfl, ?_⟩
        exact ((h4 l (some r')).2 ⟨i1, by intro q e; cases e; exact i2⟩).2 r' rfl

/-- **C104.** A file that holds no configuration, or a filter file that holds no filter, ends the program before anything is written. -/
theorem C104_refused (s : Site T) (args : Args) (file : List UInt8) :
    ((∀ t c, Holds t file → detect s.guard (PfFilter.parser s.xml s.env) (String.ofList t) ≠ .config c) → main s args file = .raises) ∧
    ∀ ff, args.caf = some ff → (∀ t e rest, Holds t ff → CafText.parse s.guard s.nest t ≠ .ok e rest) → main s args file = .raises := by
  constructor
  · intro h
    unfold main
    cases hc : FileText.configFromFile s.guard (PfFilter.parser s.xml s.env) file with
    | config c =>
      obtain ⟨t, h1, h2⟩ := (FileText.C95_config_file s.guard _ file).2.2 c hc
      exact absurd h2 (h t c h1)
    | _ => rfl
  · intro ff hff h
    unfold main
    cases hc : FileText.configFromFile s.guard (PfFilter.parser s.xml s.env) file with
    | config c =>
      simp only
      cases hh : (if args.expand then s.expand c else .ok (heapOf c)) with
      | error e => rfl
      | ok heap =>
        simp only [selection, hff]
        cases hp : FileText.cafFromFile s.guard s.nest ff with
        | ok e rest =>
          obtain ⟨t, h1, h2⟩ := (FileText.C95_filter_file s.guard s.nest ff).2.2 e rest hp
          exact absurd h2 (h t e rest h1)
        | _ => rfl
    | _ => rfl

/-- **C104, without a filter.** The page shows all of the configuration; nothing is written exactly if `--sort` meets a member without a key. -/
theorem C104_no_filter_partial (s : Site T) (args : Args) (hcaf : args.caf = none) (file : List UInt8) (t : List Char) (ht : Holds t file) (c : Conf T)
    (hc : detect s.guard (PfFilter.parser s.xml s.env) (String.ofList t) = .config c)
    (hexp : args.expand = true → ∃ heap', s.expand c = .ok heap')
    (W : WellFormed (s.objs args.expand c) (tables c)) (hK : (s.keys args.expand c).Total) :
    (main s args file = .raises ∧ args.sort = true ∧ NoKey (s.keys args.expand c) (s.objs args.expand c) (tables c)) ∨
    ((args.sort = true → ¬ NoKey (s.keys args.expand c) (s.objs args.expand c) (tables c)) ∧ ∃ w, main s args file = .written w ∧
      Members (s.keys args.expand c) (s.objs args.expand c) (tables c) args.sort w.objs ∧ Shows s c w.objs none args.sns w) := by
  have hc' := (FileText.C95_config_file s.guard (PfFilter.parser s.xml s.env) file).1 t ht
  rw [hc] at hc'
  obtain ⟨heap, hh⟩ : ∃ heap, (if args.expand then s.expand c else .ok (heapOf c)) = .ok heap := by
    cases hx : args.expand with
    | true => exact hexp hx
    | false => exact ⟨_, rfl⟩
  refine finish_shows hc' hh (r := none) ?_ W hK (sel := none) (by intro l h; cases h) (fun _ => rfl)
  unfold selection
  rw [hcaf]

/-- **C104, with a filter.** The page shows the rules and NAT entries that the filter selects (`select`: the subject of C88 and C93) with
everything they refer to — with `--expand`, if the filter has no keyword or no network object holds the address any.  Nothing is written exactly if a selected rule belongs
to a list that an interface of an IOS configuration uses, or `--sort` meets a member without a key. -/
theorem C104_page_partial (s : Site T) (args : Args) (file : List UInt8) (t : List Char) (ht : Holds t file) (c : Conf T)
    (hc : detect s.guard (PfFilter.parser s.xml s.env) (String.ofList t) = .config c)
    (ff : List UInt8) (hcaf : args.caf = some ff) (ft : List Char) (hft : Holds ft ff) (e : Expr) (rest : List Char)
    (hf : CafText.parse s.guard s.nest ft = .ok e rest)
    (hexp : args.expand = true → (∃ heap', s.expand c = .ok heap' ∧ ∀ k x, RuleAt c k x ∨ NatAt c k x → EntryExpands x (heap' k)) ∧
      (NoKeyword e ∨ ∀ k x, RuleAt c k x ∨ NatAt c k x → ∀ h, HostOf h x → NoAnyObject h))
    (W : WellFormed (s.objs args.expand c) (tables c)) (hK : (s.keys args.expand c).Total)
    (U : List El) (hU : HoldsCfg (Page.info (s.objs args.expand c)) c U)
    (ho0 : ∀ r x, x ∈ s.order0 r ↔ x ∈ r) (hord : ∀ n r x, x ∈ s.order n r ↔ x ∈ r) :
    ∃ N, ∀ fuel rounds, N ≤ fuel → N ≤ rounds → ∃ sel,
      select s.guard (PfFilter.parser s.xml s.env) (PfFilter.filter fuel) s.nest fuel ft (String.ofList t) = some (.ok sel) ∧
      let p := main { s with fuel := fuel, rounds := rounds } args file
      (p = .raises ∧ ((∃ k x n, k ∈ sel ∧ RuleAt c k x ∧ listOf x = some n ∧ InUse c n) ∨
        (args.sort = true ∧ NoKey (s.keys args.expand c) (s.objs args.expand c) (tables c)))) ∨
      (¬ (∃ k x n, k ∈ sel ∧ RuleAt c k x ∧ listOf x = some n ∧ InUse c n) ∧
        (args.sort = true → ¬ NoKey (s.keys args.expand c) (s.objs args.expand c) (tables c)) ∧
        ∃ w, p = .written w ∧ Members (s.keys args.expand c) (s.objs args.expand c) (tables c) args.sort w.objs ∧
          Shows s c w.objs (some sel) args.sns w) := by
  have hc' := (FileText.C95_config_file s.guard (PfFilter.parser s.xml s.env) file).1 t ht
  rw [hc] at hc'
  have hf' := (FileText.C95_filter_file s.guard s.nest ff).1 ft hft
  rw [hf] at hf'
  obtain ⟨hrules, hnats, -⟩ := rules_of s.guard s.xml s.env _ c hc
  obtain ⟨heap, hh, N, hN⟩ := select_heap s.toApp args.expand c (String.ofList t) hc ft e rest hf hexp
  refine ⟨N + U.length + 1, fun fuel rounds h1 h2 => ?_⟩
  obtain ⟨sel, r, i1, i2, i3, i4⟩ := hN fuel (by omega)
  have i2' : ∀ k ∈ r, ∃ x, RuleAt c k x ∨ NatAt c k x := fun k hk => i2 k (i4.mem_iff.2 hk)
  obtain ⟨r1, r2⟩ := Accepted.resolve_entries hU s.order0 s.order ho0 hord i2' (rounds := rounds) (by omega)
  have hbad : (∃ k x s, k ∈ r ∧ RuleAt c k x ∧ listOf x = some s ∧ InUse c s) ↔
      ∃ k x s, k ∈ sel ∧ RuleAt c k x ∧ listOf x = some s ∧ InUse c s := by
    simp only [i4.mem_iff]
  refine ⟨sel, i1, ?_⟩
  simp only
  cases hr : resolve (Page.info (s.objs args.expand c)) (Render.keys c) rounds s.order0 s.order (r.map .obj) with
  | error err =>
    refine Or.inl ⟨?_, Or.inl (hbad.1 (r1.1 ⟨err, hr⟩))⟩
    unfold main
    simp only [hc', hh, selection, hcaf, hf', i3, hr]
  | ok v =>
    obtain ⟨res, rfl, hres⟩ := r2 v hr
    have hno : ¬ ∃ k x n, k ∈ sel ∧ RuleAt c k x ∧ listOf x = some n ∧ InUse c n := by
      rw [← hbad, ← r1]
      rintro ⟨err, he⟩
      rw [hr] at he
      cases he
    have hsel : selection { s with fuel := fuel, rounds := rounds } args heap c = some (.ok (some res)) := by
      simp only [selection, hcaf, hf', i3, hr]
    have := finish_shows (s := { s with fuel := fuel, rounds := rounds }) (args := args) (file := file) (c := c) hc' hh hsel W hK (sel := some sel) ?_ (by intro h; cases h)
    · rcases this with ⟨g1, g2, g3⟩ | ⟨g1, w, g2, g3, g4⟩
      · exact Or.inl ⟨g1, Or.inr ⟨g2, g3⟩⟩
      · exact Or.inr ⟨hno, g1, w, g2, g3, ⟨g4.rows⟩⟩
    · intro l e
      cases e
      refine ⟨fun o ho => ?_, res, rfl, fun x => ?_⟩
      · obtain ⟨x, hx⟩ := i2 o ho
        exact hx.imp (fun h => (hrules o).2 ⟨x, h⟩) (fun h => (hnats o).2 ⟨x, h⟩)
      · rw [hres]
        exact Accepted.closure_congr (fun y => by simp only [List.mem_map, i4.mem_iff]) x

/-- **C104, both programs.** `/show` of the web application and static.py (without `--sort`), on the same configuration, filter and options, show the same: where there is
a page without a warning, static.py writes the page of the same selection; where there is a warning, or a server error, it raises. -/
theorem C104_same_as_show (s : Site T) (hinfo : ∀ b c, s.info b c = Page.info (s.objs b c)) (args : Args) (hsort : args.sort = false)
    (file : List UInt8) (t : List Char) (ht : Holds t file) (c : Conf T) (hc : detect s.guard (PfFilter.parser s.xml s.env) (String.ofList t) = .config c)
    (db : Shelf T) (wargs : Web.Args) (n : String) (hn : wargs.config = some n) (hdb : dGet db n = some c)
    (hexp : Web.truthy wargs.exp = args.expand)
    (hcaf : (args.caf = none ∧ (wargs.caf = none ∨ wargs.caf = some "")) ∨
      ∃ ff ft, args.caf = some ff ∧ Holds ft ff ∧ ft ≠ [] ∧ wargs.caf = some (String.ofList ft)) :
    (∃ e, handle s.toApp db (.showGet wargs) = (db, e) ∧ (e = .serverError ∨ ∃ p, e = .page p ∧ p.warning = true) ∧ main s args file = .raises) ∨
    (handle s.toApp db (.showGet wargs) = (db, .hangs) ∧ main s args file = .hangs) ∨
    ∃ p sel, handle s.toApp db (.showGet wargs) = (db, .page p) ∧ p.warning = false ∧ p.conf = c ∧
      ((p.selection = .nothing ∧ sel = none) ∨ ∃ r, p.selection = .resolved r ∧ sel = some r) ∧
      main s args file = .written (render s args c sel (s.objs args.expand c)) := by
  have hc' := (FileText.C95_config_file s.guard (PfFilter.parser s.xml s.env) file).1 t ht
  rw [hc] at hc'
  show (∃ e, (db, showPage s.toApp db wargs) = (db, e) ∧ _) ∨ ((db, showPage s.toApp db wargs) = (db, .hangs) ∧ _) ∨
    ∃ p sel, (db, showPage s.toApp db wargs) = (db, .page p) ∧ _
  unfold main
  simp only [showPage, hn, hdb, hexp, hc']
  cases hh : (if args.expand then s.expand c else .ok (heapOf c)) with
  | error e => exact Or.inl ⟨_, rfl, Or.inl rfl, rfl⟩
  | ok heap =>
    have hfin : ∀ sel, finish s args c sel = .written (render s args c sel (s.objs args.expand c)) := by
      intro sel
      unfold finish
      rw [hsort]
      rfl
    simp only
    rcases hcaf with ⟨h1, h2⟩ | ⟨ff, ft, h1, h2, h3, h4⟩
    · have : runFilter s.toApp args.expand heap c wargs.caf = some (.nothing, false, "") := by
        rcases h2 with h2 | h2 <;> rw [h2] <;> rfl
      rw [this]
      simp only [selection, h1, hfin]
      exact Or.inr (Or.inr ⟨_, none, rfl, rfl, rfl, Or.inl ⟨rfl, rfl⟩, rfl⟩)
    · have hne : String.ofList ft ≠ "" := by
        intro e
        apply h3
        have := congrArg String.toList e
        simpa using this
      have hf' := (FileText.C95_filter_file s.guard s.nest ff).1 ft h2
      simp only [runFilter, h4, if_neg hne, selection, h1, hf', String.toList_ofList, hinfo]
      cases hp : CafText.parse s.guard s.nest ft with
      | fail => exact Or.inl ⟨_, rfl, Or.inr ⟨_, rfl, rfl⟩, rfl⟩
      | raise e => exact Or.inl ⟨_, rfl, Or.inr ⟨_, rfl, rfl⟩, rfl⟩
      | ok e rest =>
        simp only
        cases hr : filterOn s.fuel heap c e with
        | error err => exact Or.inl ⟨_, rfl, Or.inr ⟨_, rfl, rfl⟩, rfl⟩
        | ok r =>
          simp only
          cases hq : resolve (Page.info (s.objs args.expand c)) (Render.keys c) s.rounds s.order0 s.order (r.map .obj) with
          | error err => exact Or.inl ⟨_, rfl, Or.inr ⟨_, rfl, rfl⟩, rfl⟩
          | ok v =>
            cases v with
            | none => exact Or.inr (Or.inl ⟨rfl, rfl⟩)
            | some r' =>
              simp only [hfin]
              exact Or.inr (Or.inr ⟨_, some r', rfl, rfl, rfl, Or.inr ⟨r', rfl, rfl⟩, rfl⟩)

end Acltk.Static
