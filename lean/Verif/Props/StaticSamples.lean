import Verif.Props.Static
import Verif.Props.PageSamples
/-!
# C104: a page of a file
-/
namespace Acltk.Static
open Acltk Acltk.Lookup Acltk.Detect Acltk.DetectText Acltk.Caf Acltk.Resolve Acltk.ExpandFilter Acltk.Web
open Acltk.Accepted (RuleAt NatAt HoldsCfg InUse listOf)
open Acltk.ConfigFilter (select)
open Acltk.Page (WellFormed Refers)
open Acltk.FileText (Holds)

variable {T : Type}

/-- The objects of the sample of C72: the name, the object, the group and the rule have the places of their commands. -/
def sampleObjs : Oid → Page.Obj
  | 3 => .name "web"
  | 4 => .netObject "dmz" [.obj 11]
  | 5 => .group .network "srv" [.obj 10, .obj 4]
  | 6 => .rule (some "out") (.obj 8) (.obj 9) .none (.obj 5) (.obj 12) none []
  | 8 => .protocol "tcp"
  | 10 => .address (some 3)
  | 11 => .address none
  | _ => .other

def sampleTables : Page.Tables where
  names := [3]
  table
    | .netObject => [("dmz", 4)]
    | .group .network => [("srv", 5)]
    | _ => []
  nat := []
  rules := [6]

/-- Everything there is. -/
def sampleAll : List El :=
  [.obj 3, .obj 4, .obj 5, .obj 6, .obj 8, .obj 9, .obj 10, .obj 11, .obj 12, .none, .str "out", .str "NetworkGroup", .str "NetworkObject", .str "Names"]

theorem sample_objs (o : Oid) : sampleObjs o = .other ∨ o ∈ [3, 4, 5, 6, 8, 10, 11] := by
  unfold sampleObjs
  split <;> simp

theorem sample_tables (r : AclText.PRule) : tables (T := T) (.fwsm [.version "ASA Version 9.1".toList, .nothing, .hostname "fw",
      .name "web" ⟨.v4, 0x0a000001⟩ none, .netObj "dmz" [.net ⟨.v4, 0x0a010000, 16⟩] none none,
      .netGroup "srv" [.host ⟨.v4, 0x0a000001⟩, .obj "dmz" [.net ⟨.v4, 0x0a010000, 16⟩]] (some "the servers".toList),
      .rule r, .accessGroup "out" "in" "outside"]) = sampleTables := by
  have : ∀ t t' : Page.Tables, t.names = t'.names → (∀ s, t.table s = t'.table s) → t.nat = t'.nat → t.rules = t'.rules → t = t' := by
    intro t t' h1 h2 h3 h4
    cases t
    cases t'
    simp only at h1 h2 h3 h4
    subst h1 h3 h4
    rw [funext h2]
  refine this _ _ rfl ?_ rfl rfl
  intro s
  cases s with
  | group c => cases c <;> rfl
  | _ => rfl

theorem sample_field {y : El} (h : Field (Page.info sampleObjs) 6 y) : y ∈ sampleAll ∧ ∀ q, y = .obj q → q ∈ [5, 8, 9, 12] := by
  obtain ⟨l, h1, h2⟩ : ∃ l, fields (Page.info sampleObjs) [] (.obj 6) = .ok l ∧
      ∀ y ∈ l, y ∈ sampleAll ∧ ∀ q ∈ [5, 8, 9, 12, 3, 4, 6, 10, 11], y = .obj q → q ∈ [5, 8, 9, 12] := ⟨_, rfl, by decide⟩
  obtain ⟨h3, h4⟩ := h2 _ ((fields_ok_mem h1 _).2 ⟨6, rfl, h⟩)
  refine ⟨h3, fun q e => h4 q ?_ e⟩
  subst e
  have h5 : ∀ x ∈ sampleAll, ∀ q, x = .obj q → q ∈ [5, 8, 9, 12, 3, 4, 6, 10, 11] := by
    intro x hx q e
    simp only [sampleAll, List.mem_cons, List.not_mem_nil, or_false] at hx
    rcases hx with h|h|h|h|h|h|h|h|h|h|h|h|h|h <;> rw [h] at e <;> cases e <;> decide
  exact h5 _ h3 q rfl

theorem sample_refers {o : Oid} (h : Refers sampleObjs sampleTables o) : o ∈ [4, 5, 8, 9, 10, 12] := by
  have hm : ∀ a c n l, sampleObjs a = .group c n l → ∀ o, El.obj o ∈ l → o ∈ [4, 5, 8, 9, 10, 12] := by
    intro a c n l e o ho
    rcases sample_objs a with h | h
    · rw [h] at e; cases e
    · simp only [List.mem_cons, List.not_mem_nil, or_false] at h
      rcases h with h|h|h|h|h|h|h <;> subst h <;> cases e
      simp only [List.mem_cons, El.obj.injEq, List.not_mem_nil, or_false] at ho
      rcases ho with rfl | rfl <;> decide
  cases h with
  | @field a o hm hf =>
    have ha : a = 6 := by
      rcases hm with hm | hm
      · simpa [sampleTables] using hm
      · cases hm
    subst ha
    have := (sample_field hf).2 o rfl
    exact (by decide : ∀ o ∈ [5, 8, 9, 12], o ∈ [4, 5, 8, 9, 10, 12]) o this
  | member _ e hl => exact hm _ _ _ _ e _ hl
  | listed _ e hl => exact hm _ _ _ _ e _ hl

theorem sample_get {m n : String} {q o : Oid} (h : dGet [(m, q)] n = some o) : n = m ∧ o = q := by
  by_cases e : m = n
  · subst e; rw [show dGet [(m, q)] m = some q by simp [dGet]] at h; cases h; exact ⟨rfl, rfl⟩
  · rw [show dGet [(m, q)] n = none by simp [dGet, e]] at h; cases h

theorem sample_wf : WellFormed sampleObjs sampleTables where
  rules := by
    intro o ho
    simp only [sampleTables, List.mem_cons, List.not_mem_nil, or_false] at ho
    subst ho
    exact ⟨_, _, _, _, _, _, _, _, rfl⟩
  nat := by intro o ho; cases ho
  nodup := by
    intro s
    cases s with
    | group c => cases c <;> decide
    | _ => decide
  table := by
    intro s n o hs h
    cases s with
    | interface => exact absurd rfl hs
    | netObject => obtain ⟨rfl, rfl⟩ := sample_get h; rfl
    | group c =>
      cases c with
      | network => obtain ⟨rfl, rfl⟩ := sample_get h; rfl
      | _ => cases h
    | _ => cases h
  ifaces := by intro n o h; cases h
  members := by
    intro o c n l e x hx
    rcases sample_objs o with h | h
    · rw [h] at e; cases e
    · simp only [List.mem_cons, List.not_mem_nil, or_false] at h
      rcases h with h|h|h|h|h|h|h <;> subst h <;> cases e
      simp only [List.mem_cons, List.not_mem_nil, or_false] at hx
      rcases hx with rfl | rfl <;> exact ⟨_, rfl⟩
  noNames := rfl
  names := by
    intro o ho
    simp only [sampleTables, List.mem_cons, List.not_mem_nil, or_false] at ho
    subst ho
    exact ⟨_, rfl⟩
  listed := by
    intro o s n hr hn
    have := sample_refers hr
    simp only [List.mem_cons, List.not_mem_nil, or_false] at this
    rcases this with rfl | rfl | rfl | rfl | rfl | rfl <;> cases hn <;> exact ⟨by decide, by simp [sampleTables, dGet]⟩
  target := by
    intro o t hr e
    have := sample_refers hr
    simp only [List.mem_cons, List.not_mem_nil, or_false] at this
    rcases this with rfl | rfl | rfl | rfl | rfl | rfl <;> cases e
    decide
  fresh := by
    intro o hr
    have := sample_refers hr
    simp only [List.mem_cons, List.not_mem_nil, or_false] at this
    rcases this with rfl | rfl | rfl | rfl | rfl | rfl <;> exact ⟨by decide, by decide⟩
  addresses := by
    intro o n l e x hx
    rcases sample_objs o with h | h
    · rw [h] at e; cases e
    · simp only [List.mem_cons, List.not_mem_nil, or_false] at h
      rcases h with h|h|h|h|h|h|h <;> subst h <;> cases e
      simp only [List.mem_cons, List.not_mem_nil, or_false] at hx
      subst hx
      rfl

/-- The members of the group of the sample. -/
def sampleMembers : Page.Members where
  net := fun o => if o = 10 then .host ⟨.v4, 0x0a000001⟩ else .obj "dmz" [.net ⟨.v4, 0x0a010000, 16⟩]
  port := fun _ => .leaf (.range "80" "90")
  svc := fun _ => .group "" []
  proto := fun _ => .leaf "tcp"

/-- The program with the objects of the sample. -/
def sampleSite (env : Pf.Env T) (g : String → Option Nat) : Site T :=
  { sampleApp env with
    objs := fun _ _ => sampleObjs, keys := fun _ _ => Page.classKeys g sampleMembers, inactive := fun _ _ => false, lower := id }

/-- The hypotheses of `C104_page_partial` are met by the file of C72 and the filter of C93, and so static.py with `--sort` writes a page, on which is
the rule — selected or, with `--show-not-selected`, not. -/
theorem C104_sample (env : Pf.Env T) (g : String → Option Nat) :
    ∃ N, ∀ fuel rounds, N ≤ fuel → N ≤ rounds → ∃ w sel i r,
      main { sampleSite env g with fuel := fuel, rounds := rounds } { caf := some (FileText.Utf8 Accepted.sampleFilter), sns := true, sort := true }
        (FileText.Utf8 FwsmText.sampleText.dropLast) = .written w ∧
      detect tatsuGuard (PfFilter.parser (fun _ => none) env) (String.ofList FwsmText.sampleText.dropLast) = .config (.fwsm i) ∧
      RuleAt (T := T) (.fwsm i) 6 r ∧ Shows (sampleSite env g) (.fwsm i) w.objs (some sel) true w := by
  obtain ⟨e, rest, hf⟩ := (Accepted.C93_sample (PfFilter.parser (fun _ => none) env)).1
  obtain ⟨items, hs, hp⟩ := FwsmText.C72_sample
  have ht : FwsmText.sampleText = FwsmText.sampleText.dropLast ++ ['\n'] := by decide +kernel
  rw [ht] at hp
  have hd := fwsm_accepts (pf := PfFilter.parser (fun _ => none) env) hp
  obtain ⟨r', rfl, e1, e2, e3⟩ := Accepted.sample_shape hs
  have rule : ∀ k x, RuleAt (T := T) (.fwsm [.version "ASA Version 9.1".toList, .nothing, .hostname "fw",
      .name "web" ⟨.v4, 0x0a000001⟩ none, .netObj "dmz" [.net ⟨.v4, 0x0a010000, 16⟩] none none,
      .netGroup "srv" [.host ⟨.v4, 0x0a000001⟩, .obj "dmz" [.net ⟨.v4, 0x0a010000, 16⟩]] (some "the servers".toList),
      .rule r', .accessGroup "out" "in" "outside"]) k x → k = 6 ∧ x = CafFilter.Stated r' := by
    rintro k x ⟨r, h, rfl⟩
    match k, h with
    | 0, h => cases h
    | 1, h => cases h
    | 2, h => cases h
    | 3, h => cases h
    | 4, h => cases h
    | 5, h => cases h
    | 6, h => cases h; exact ⟨rfl, rfl⟩
    | 7, h => cases h
  have nat : ∀ k x, ¬ NatAt (T := T) (.fwsm [.version "ASA Version 9.1".toList, .nothing, .hostname "fw",
      .name "web" ⟨.v4, 0x0a000001⟩ none, .netObj "dmz" [.net ⟨.v4, 0x0a010000, 16⟩] none none,
      .netGroup "srv" [.host ⟨.v4, 0x0a000001⟩, .obj "dmz" [.net ⟨.v4, 0x0a010000, 16⟩]] (some "the servers".toList),
      .rule r', .accessGroup "out" "in" "outside"]) k x := by
    rintro k x ⟨i, n, h, h', rfl⟩
    match k, h with
    | 0, h => cases h; cases h'
    | 1, h => cases h; cases h'
    | 2, h => cases h; cases h'
    | 3, h => cases h; cases h'
    | 4, h => cases h; cases h'
    | 5, h => cases h; cases h'
    | 6, h => cases h; cases h'
    | 7, h => cases h; cases h'
  have hU : HoldsCfg (T := T) (Page.info sampleObjs) (.fwsm [.version "ASA Version 9.1".toList, .nothing, .hostname "fw",
      .name "web" ⟨.v4, 0x0a000001⟩ none, .netObj "dmz" [.net ⟨.v4, 0x0a010000, 16⟩] none none,
      .netGroup "srv" [.host ⟨.v4, 0x0a000001⟩, .obj "dmz" [.net ⟨.v4, 0x0a010000, 16⟩]] (some "the servers".toList),
      .rule r', .accessGroup "out" "in" "outside"]) sampleAll := by
    refine ⟨?_, ?_, ?_, ?_, ?_⟩
    · intro k x h
      obtain ⟨rfl, rfl⟩ := rule k x h
      refine ⟨_, "tcp", rfl, ?_, rfl⟩
      show some "out" = some r'.id
      rw [e1]
    · intro k x h; exact absurd h (nat k x)
    · rintro k x (h | h)
      · obtain ⟨rfl, -⟩ := rule k x h; decide
      · exact absurd h (nat k x)
    · rintro k x y (h | h) hf
      · obtain ⟨rfl, -⟩ := rule k x h
        exact (sample_field hf).1
      · exact absurd h (nat k x)
    · intro o y ho hy
      have h1 : ∀ x ∈ sampleAll, ∀ y ∈ (process (Page.info sampleObjs) x).1, y ∈ sampleAll := by decide
      exact h1 _ ho y ((process_pulls _ o y).2 hy)
  have hkey : ¬ NoKey (Page.classKeys g sampleMembers) sampleObjs sampleTables := by
    rintro ⟨o, c, n, l, x, -, h2, h3, h4⟩
    rcases sample_objs o with h | h
    · rw [h] at h2; cases h2
    · simp only [List.mem_cons, List.not_mem_nil, or_false] at h
      rcases h with h|h|h|h|h|h|h <;> subst h <;> cases h2
      simp only [List.mem_cons, List.not_mem_nil, or_false] at h3
      rcases h3 with rfl | rfl
      · exact h4 _ rfl
      · exact h4 _ rfl
  have mark : ∀ t : List Char, t.head? ≠ some FileText.mark → Holds t (FileText.Utf8 t) := fun t h => Or.inr ⟨rfl, h⟩
  obtain ⟨N, hN⟩ := C104_page_partial (sampleSite env g) { caf := some (FileText.Utf8 Accepted.sampleFilter), sns := true, sort := true }
    (FileText.Utf8 FwsmText.sampleText.dropLast) FwsmText.sampleText.dropLast (mark _ (by decide +kernel)) _ hd
    (FileText.Utf8 Accepted.sampleFilter) rfl Accepted.sampleFilter (mark _ (by decide +kernel)) e rest hf (by intro h; cases h)
    (by rw [sample_tables]; exact sample_wf) (Page.classKeys_total g sampleMembers) sampleAll hU (fun _ _ => Iff.rfl)
    (fun _ r x => List.mem_reverse)
  refine ⟨N, fun fuel rounds h1 h2 => ?_⟩
  obtain ⟨sel, -, h⟩ := hN fuel rounds h1 h2
  rcases h with ⟨-, ⟨k, x, n, -, -, -, hin⟩ | ⟨-, h⟩⟩ | ⟨-, -, w, hw, -, hs⟩
  · exact hin.elim
  · rw [sample_tables] at h
    exact absurd h hkey
  · exact ⟨w, sel, _, _, hw, hd, ⟨r', rfl, rfl⟩, hs⟩

end Acltk.Static
