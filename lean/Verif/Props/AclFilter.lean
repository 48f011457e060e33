import Verif.Model.AclFilter
import Verif.Props.Static
import Verif.Props.FwsmFile
/-!
# C109: examples/acl-filter.py
-/
namespace Acltk.AclFilter
open Acltk Acltk.Lookup Acltk.DetectText
open Acltk.Accepted (RuleAt)
open Acltk.FileText (Holds)

variable {T : Type}

/-- No target can be made: `ACLRule` has no parameters `source` and `dest`. -/
theorem target_raises (k : Nat) : target k = .error .assertion := rfl

/-- The rule names any source and any destination. -/
def AnyToAny (x : Entry) : Prop := ∃ r, x = .rule r ∧ (r.src.host = .any ∨ r.src.host = .cafAny) ∧ (r.dst.host = .any ∨ r.dst.host = .cafAny)

theorem anyAny_iff (x : Entry) : anyAny x = true ↔ AnyToAny x := by
  have key : ∀ h : Host, h.isNetworkAny = true ↔ h = .any ∨ h = .cafAny := by
    intro h; cases h <;> simp [Host.isNetworkAny]
  cases x with
  | rule r => simp [anyAny, AnyToAny, key]
  | nat n => simp [anyAny, AnyToAny]

/-- **C109, violated**: for every accepted file the program prints how many rules are from any source to any destination, and then ends in AssertionError. -/
theorem C109_violated (g : Guard) (xml : String → Option Pf.Elem) (v : Pf.Env T) (fuel : Nat) (file : List UInt8) (t : List Char) (ht : Holds t file)
    (c : Web.Conf T) (hc : detect g (PfFilter.parser xml v) (String.ofList t) = .config c) :
    ∃ anyany : List Oid, anyany.Pairwise (· < ·) ∧ (∀ o, o ∈ anyany ↔ ∃ x, RuleAt c o x ∧ AnyToAny x) ∧
      main g xml v fuel file = ⟨["anyany " ++ toString anyany.length], .error .assertion⟩ := by
  obtain ⟨L, -⟩ := Accepted.loaded g xml v _ c hc
  obtain ⟨-, -, hs⟩ := Static.rules_of g xml v _ c hc
  rw [Static.tables_rules] at hs
  refine ⟨(ExpandFilter.ids c).1.filter fun o => anyAny (ExpandFilter.heapOf c o), hs.filter _, fun o => ?_, ?_⟩
  · rw [List.mem_filter, L.rules, anyAny_iff]
    constructor
    · rintro ⟨⟨x, hx⟩, h⟩
      rw [L.behind o x (Or.inl hx)] at h
      exact ⟨x, hx, h⟩
    · rintro ⟨x, hx, h⟩
      refine ⟨⟨x, hx⟩, ?_⟩
      rw [L.behind o x (Or.inl hx)]
      exact h
  · unfold main
    have := (FileText.C95_config_file g (PfFilter.parser xml v) file).1 t ht
    rw [this, hc]
    rfl

/-! ## a sample -/

/-- Two rules, one of them from any source to any destination. -/
def sampleText : List Char := "access-list a extended permit ip any any\naccess-list a extended permit tcp any host 10.0.0.1".toList

theorem sample_parsed : ∃ r q, FwsmText.parseFile tatsuGuard (sampleText ++ ['\n']) = .ok [.rule r, .rule q] [] ∧
    r.src.host.isNetworkAny = true ∧ r.dst.host.isNetworkAny = true ∧ q.dst.host.isNetworkAny = false := by
  have h : (match FwsmText.parseFile tatsuGuard (sampleText ++ ['\n']) with
      | .ok [.rule r, .rule q] [] => r.src.host.isNetworkAny && r.dst.host.isNetworkAny && !q.dst.host.isNetworkAny
      | _ => false) = true := by decide +kernel
  split at h
  · rename_i r q e
    simp only [Bool.and_eq_true, Bool.not_eq_true'] at h
    exact ⟨r, q, e, h.1.1, h.1.2, h.2⟩
  · cases h

/-- The hypotheses are met: of the two rules of the sample the program counts one, and raises. -/
theorem C109_sample (v : Pf.Env T) (fuel : Nat) : main tatsuGuard (fun _ => none) v fuel (FileText.Utf8 sampleText) = ⟨["anyany 1"], .error .assertion⟩ := by
  obtain ⟨r, q, hp, h1, h2, h3⟩ := sample_parsed
  have hd := fwsm_accepts (pf := PfFilter.parser (fun _ => none) v) hp
  obtain ⟨l, hl, hm, e⟩ := C109_violated tatsuGuard (fun _ => none) v fuel (FileText.Utf8 sampleText) sampleText (Or.inr ⟨rfl, by decide +kernel⟩) _ hd
  have hmem : ∀ o, o ∈ l ↔ o = 0 := by
    intro o
    rw [hm]
    constructor
    · rintro ⟨x, ⟨rule, h, rfl⟩, ha⟩
      match o, h with
      | 0, _ => rfl
      | 1, h =>
        cases h
        have := (anyAny_iff _).2 ha
        simp [CafFilter.Stated, anyAny, h3] at this
      | o + 2, h => simp at h
    · rintro rfl
      exact ⟨_, ⟨r, rfl, rfl⟩, (anyAny_iff _).1 (by simp [CafFilter.Stated, anyAny, h1, h2])⟩
  have : l = [0] := by
    match l, hl, hmem with
    | [], _, hm => exact absurd ((hm 0).2 rfl) (by simp)
    | [a], _, hm => rw [(hm a).1 (by simp)]
    | a :: b :: t, hl, hm =>
      have e1 := (hm a).1 (by simp)
      have e2 := (hm b).1 (by simp)
      have : a < b := (List.pairwise_cons.1 hl).1 b (by simp)
      rw [e1, e2] at this
      exact absurd this (Nat.lt_irrefl _)
  rw [e, this]
  rfl

end Acltk.AclFilter
