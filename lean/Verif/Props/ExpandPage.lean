import Verif.Props.ExpandNested
/-!
# C114: the page of a configuration with `--expand`, from its text
-/
namespace Acltk.Static
open Acltk Acltk.Lookup Acltk.Detect Acltk.DetectText Acltk.Caf Acltk.Resolve Acltk.ExpandFilter Acltk.Web
open Acltk.Accepted (RuleAt NatAt HoldsCfg InUse listOf)
open Acltk.ConfigFilter (select)
open Acltk.Page (WellFormed Completes Listed OnPage Anchored Expanded NewServices PlainAddresses Nested)
open Acltk.FileText (Holds)

variable {T : Type}

/-- The objects are those of the configuration, and whatever it refers to is what it keeps: FWSM and IOS texts are settled (C108, C113), the aliases of a pfSense
configuration have names (C111). -/
def ObjectsOf (objs : Oid → Page.Obj) : Conf T → Prop
  | .fwsm items => Page.ObjectsOf objs items ∧ Page.Settled items
  | .ios items => IosPage.ObjectsOf objs items ∧ IosPage.Settled items
  | .pfsense (_, p) => PfPage.ObjectsOf objs p ∧ PfPage.Named p

theorem objects_wellFormed {g : Guard} {xml : String → Option Pf.Elem} {v : Pf.Env T} {t : String} {c : Conf T}
    (hc : detect g (PfFilter.parser xml v) t = .config c) {objs : Oid → Page.Obj} (B : ObjectsOf objs c) :
    WellFormed objs (tables c) ∧ (∃ U, HoldsCfg (Page.info objs) c U) ∧ PlainAddresses objs ∧ Nested objs id ∧ ∃ all : List Oid, ∀ o, objs o ≠ .other → o ∈ all := by
  cases c with
  | fwsm items =>
    obtain ⟨W, U⟩ := fwsm_wellFormed hc B.1 B.2
    obtain ⟨u, hp⟩ := Accepted.detect_inv hc
    exact ⟨W, U, Page.plain B.1, Page.nested B.1 (Page.refs_of hp), B.1.finite⟩
  | ios items =>
    obtain ⟨W, U⟩ := ios_wellFormed hc B.1 B.2
    exact ⟨W, U, fun o n l h => absurd h ((IosPage.noObject B.1 o).1 n l), IosPage.nested B.1 (ios_refs hc), B.1.finite⟩
  | pfsense c =>
    obtain ⟨m, p⟩ := c
    have F := pf_facts hc B.1 B.2
    exact ⟨PfPage.wellFormed F m, PfPage.holdsCfg F m, fun o n l h => absurd h ((PfPage.noObject B.1 o).1 n l), PfPage.nested B.1, B.1.finite⟩

theorem bound : ∀ all : List Nat, ∃ N, ∀ o ∈ all, o < N
  | [] => ⟨0, by simp⟩
  | a :: l => by
    obtain ⟨N, h⟩ := bound l
    refine ⟨max N (a + 1), fun o ho => ?_⟩
    rcases List.mem_cons.1 ho with rfl | ho
    · omega
    · have := h o ho
      omega

/-- **C114, the expansion.** For every accepted text whose references are to what it keeps, with enough stack `--expand` raises nothing, and every group that is listed then has its leaves as members. -/
theorem C114_text {g : Guard} {xml : String → Option Pf.Elem} {v : Pf.Env T} {t : String} {c : Conf T}
    (hc : detect g (PfFilter.parser xml v) t = .config c) {objs : Oid → Page.Obj} (B : ObjectsOf objs c) {svc : Oid → Oid} (hsvc : NewServices objs svc) :
    ∃ N, ∀ fuel, N ≤ fuel → ∃ objs', Page.expand svc fuel (tables c) objs = .ok objs' ∧ Expanded objs svc (tables c) objs' := by
  obtain ⟨W, -, hP, hN, all, hall⟩ := objects_wellFormed hc B
  obtain ⟨N, hb⟩ := bound all
  refine ⟨N, fun fuel hf => Page.C114_expand W hP hsvc hN ?_⟩
  intro c k o h
  have := W.table _ _ _ (by simp) h
  have : o ∈ all := hall o fun e => by simp [Page.nameOf, e] at this
  exact Nat.lt_of_lt_of_le (hb o this) hf

/-- What the theorems about pages ask for, of the expanded objects. -/
theorem expanded_wellFormed {g : Guard} {xml : String → Option Pf.Elem} {v : Pf.Env T} {t : String} {c : Conf T}
    (hc : detect g (PfFilter.parser xml v) t = .config c) {objs objs' : Oid → Page.Obj} (B : ObjectsOf objs c) {svc : Oid → Oid} (hsvc : NewServices objs svc)
    (E : Expanded objs svc (tables c) objs') : WellFormed objs' (tables c) ∧ ∃ U, HoldsCfg (Page.info objs') c U := by
  obtain ⟨W, ⟨U, hU⟩, hP, -, hfin⟩ := objects_wellFormed hc B
  exact ⟨Page.C114_wellFormed W hP hsvc E, Accepted.C114_holds hU hfin E⟩

/-- **C114, without a filter.** For every accepted text whose references are to what it keeps the page with `--expand` shows all of it; nothing is written exactly if `--sort` meets a member
without a key. -/
theorem C114_no_filter_partial (s : Site T) (args : Args) (hcaf : args.caf = none) (hexp : args.expand = true) (file : List UInt8) (t : List Char) (ht : Holds t file)
    (c : Conf T) (hc : detect s.guard (PfFilter.parser s.xml s.env) (String.ofList t) = .config c) (B : ObjectsOf (s.objs false c) c)
    (svc : Oid → Oid) (hsvc : NewServices (s.objs false c) svc) (E : Expanded (s.objs false c) svc (tables c) (s.objs true c))
    (heap' : Oid → Entry) (hx : s.expand c = .ok heap') (hK : (s.keys true c).Total) :
    (main s args file = .raises ∧ args.sort = true ∧ NoKey (s.keys true c) (s.objs true c) (tables c)) ∨
    ((args.sort = true → ¬ NoKey (s.keys true c) (s.objs true c) (tables c)) ∧ ∃ w, main s args file = .written w ∧
      Members (s.keys true c) (s.objs true c) (tables c) args.sort w.objs ∧ Shows s c w.objs none args.sns w) := by
  have := C104_no_filter_partial s args hcaf file t ht c hc (fun _ => ⟨heap', hx⟩)
    (by rw [hexp]; exact (expanded_wellFormed hc B hsvc E).1) (by rw [hexp]; exact hK)
  rwa [hexp] at this

/-- **C114, with a filter.** For every accepted text whose references are to what it keeps, and every filter that has no keyword, or any filter if no network object holds the address any, the page
with `--expand` shows what the filter selects of the configuration as it is written, with everything that refers to; nothing is written exactly if the filter selects a rule of a list that is bound to an
interface of an IOS configuration (C44) or `--sort` meets a member without a key. -/
theorem C114_page_partial (s : Site T) (args : Args) (hexp : args.expand = true) (file : List UInt8) (t : List Char) (ht : Holds t file)
    (c : Conf T) (hc : detect s.guard (PfFilter.parser s.xml s.env) (String.ofList t) = .config c)
    (ff : List UInt8) (hcaf : args.caf = some ff) (ft : List Char) (hft : Holds ft ff) (e : Expr) (rest : List Char)
    (hf : CafText.parse s.guard s.nest ft = .ok e rest) (B : ObjectsOf (s.objs false c) c)
    (svc : Oid → Oid) (hsvc : NewServices (s.objs false c) svc) (E : Expanded (s.objs false c) svc (tables c) (s.objs true c))
    (heap' : Oid → Entry) (hx : s.expand c = .ok heap') (hE : ∀ k x, RuleAt c k x ∨ NatAt c k x → EntryExpands x (heap' k))
    (hany : NoKeyword e ∨ ∀ k x, RuleAt c k x ∨ NatAt c k x → ∀ h, HostOf h x → NoAnyObject h) (hK : (s.keys true c).Total)
    (ho0 : ∀ r x, x ∈ s.order0 r ↔ x ∈ r) (hord : ∀ n r x, x ∈ s.order n r ↔ x ∈ r) :
    ∃ N, ∀ fuel rounds, N ≤ fuel → N ≤ rounds → ∃ sel,
      select s.guard (PfFilter.parser s.xml s.env) (PfFilter.filter fuel) s.nest fuel ft (String.ofList t) = some (.ok sel) ∧
      let p := main { s with fuel := fuel, rounds := rounds } args file
      let raising := (∃ k x n, k ∈ sel ∧ RuleAt c k x ∧ listOf x = some n ∧ InUse c n) ∨ args.sort = true ∧ NoKey (s.keys true c) (s.objs true c) (tables c)
      (p = .raises ∧ raising) ∨
      (¬ raising ∧ ∃ w, p = .written w ∧ Members (s.keys true c) (s.objs true c) (tables c) args.sort w.objs ∧ Shows s c w.objs (some sel) args.sns w) := by
  obtain ⟨W, U, hU⟩ := expanded_wellFormed hc B hsvc E
  obtain ⟨N, h⟩ := C104_page_partial s args file t ht c hc ff hcaf ft hft e rest hf (fun _ => ⟨⟨heap', hx, hE⟩, hany⟩)
    (by rw [hexp]; exact W) (by rw [hexp]; exact hK) U (by rw [hexp]; exact hU) ho0 hord
  refine ⟨N, fun fuel rounds h1 h2 => ?_⟩
  obtain ⟨sel, i1, i2⟩ := h fuel rounds h1 h2
  refine ⟨sel, i1, ?_⟩
  rw [hexp] at i2
  rcases i2 with ⟨p1, p2⟩ | ⟨p1, p2, p3⟩
  · exact Or.inl ⟨p1, p2⟩
  · exact Or.inr ⟨fun hh => hh.elim (fun h => p1 h) (fun h => p2 h.1 h.2), p3⟩

/-- **C114, links.** On the page with `--expand`, whatever rules and NAT entries are selected, every link but those to interfaces has its anchor. -/
theorem C114_links_partial {g : Guard} {xml : String → Option Pf.Elem} {v : Pf.Env T} {t : String} {c : Conf T}
    (hc : detect g (PfFilter.parser xml v) t = .config c) {objs objs' : Oid → Page.Obj} (B : ObjectsOf objs c) {svc : Oid → Oid} (hsvc : NewServices objs svc)
    (E : Expanded objs svc (tables c) objs') (lower : String → String) (inactive : Oid → Bool) (chosen : List Oid) (sel : Page.Sel)
    (hsel : Completes objs' (tables c) chosen sel) (sns : Bool) (o : Oid)
    (ho : OnPage lower objs' (idOf objs') inactive (tables c) sel sns o) (l : Page.Link) (hl : l ∈ Page.links objs' o) (hi : l.1 ≠ .interface) :
    Anchored lower objs' (tables c) sel sns l :=
  Page.C102_links_partial lower objs' (idOf objs') inactive _ (expanded_wellFormed hc B hsvc E).1 chosen sel hsel sns o ho l hl hi

/-- **C114, what is listed** is the same with and without `--expand`. -/
theorem C114_listed {c : Conf T} {objs objs' : Oid → Page.Obj} {svc : Oid → Oid} (E : Expanded objs svc (tables c) objs') (s : Page.Sect) (n : String) (o : Oid) :
    Listed objs' (tables c) s n o ↔ Listed objs (tables c) s n o := by
  unfold Listed
  split
  · rw [E.same o _ (by simp)]
  · rfl

end Acltk.Static
