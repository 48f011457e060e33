import Verif.Model.PortUtil
import Verif.Spec.PortTable
/-!
# C52: service names
-/
namespace Acltk

theorem getservbyname_flat (name : List Char) (proto : Option (List Char)) (lines : List (List Char))
    (sss : List (List Serv)) (h : lines.map (fun l => servLine l) = sss.map .ok) :
    getservbyname name proto lines = servSearch name proto sss.flatten := by
  have app : ∀ a b, servSearch name proto (a ++ b) =
      match servSearch name proto a with
      | .error e => .error e
      | .ok (some p) => .ok (some p)
      | .ok none => servSearch name proto b := by
    intro a b
    induction a with
    | nil => rfl
    | cons s t ih =>
      simp only [List.cons_append, servSearch]
      split
      · cases proto <;> rfl
      · exact ih
  induction lines generalizing sss with
  | nil => cases sss with | nil => rfl | cons => simp at h
  | cons l t ih =>
    cases sss with
    | nil => simp at h
    | cons s ss =>
      simp only [List.map_cons, List.cons.injEq] at h
      simp only [getservbyname, h.1, List.flatten_cons, app, ih ss h.2]
      cases servSearch name proto s with
      | error e => rfl
      | ok o => cases o <;> rfl

/-- The entries of the actual table. -/
def tableServs : List Serv := knownServices.map (fun r => ⟨r.1, r.2.1, (r.2.2 : Int)⟩)

/-- Parsing the table text yields the documented entries. -/
theorem table_parse : ∃ sss : List (List Serv), servnames.map (fun l => servLine l) = sss.map .ok ∧ sss.flatten = tableServs := by
  refine ⟨servnames.map (fun l => match servLine l with | .ok s => s | .error _ => []), ?_, ?_⟩
  · rw [List.map_map]
    apply List.map_congr_left
    have : ∀ l ∈ servnames, (servLine l).isOk = true := by decide +kernel
    intro l hl
    have := this l hl
    simp only [Function.comp]
    cases h : servLine l with
    | ok s => rfl
    | error e => rw [h] at this; cases this
  · decide +kernel

theorem search_none (name : List Char) (l : List (List Char × List Char × Nat)) :
    servSearch name none (l.map (fun r => ⟨r.1, r.2.1, (r.2.2 : Int)⟩)) =
      .ok ((l.find? (fun r => r.1 == name)).map (fun r => (r.2.2 : Int))) := by
  induction l with
  | nil => rfl
  | cons r t ih =>
    simp only [List.map_cons, servSearch, List.find?_cons]
    by_cases h : r.1 = name
    · simp [h]
    · have : r.1 ≠ name := h
      have e : (r.1 == name) = false := by simpa using h
      simp [e, this, ih]

theorem search_proto (name : List Char) (proto : List Char) (l : List (List Char × List Char × Nat)) :
    servSearch name (some proto) (l.map (fun r => ⟨r.1, r.2.1, (r.2.2 : Int)⟩)) =
      if (l.find? (fun r => r.1 == name)).isSome then .error .attribute else .ok none := by
  induction l with
  | nil => rfl
  | cons r t ih =>
    simp only [List.map_cons, servSearch]
    by_cases h : r.1 = name
    · simp [h]
    · have : r.1 ≠ name := h
      have e : (r.1 == name) = false := by simpa using h
      rw [if_neg this, ih, List.find?_cons_of_neg (by simp [e])]

/-- **C52, what holds**: without a protocol argument the port of the first table entry of that name,
`None` for every other name.  Missing: the protocol argument, see `C52_violated`. -/
theorem C52_lookup_partial (name : List Char) :
    getservbyname name none servnames = .ok ((portOfName name).map (fun n => (n : Int))) := by
  obtain ⟨sss, h1, h2⟩ := table_parse
  rw [getservbyname_flat _ _ _ _ h1, h2, tableServs, search_none]
  unfold portOfName
  cases List.find? (fun r => r.1 == name) knownServices <;> rfl

/-- **C52 is violated**: with a protocol argument the lookup of every known name raises
AttributeError (and of every unknown name gives `None`). -/
theorem C52_violated (name : List Char) (proto : List Char) :
    getservbyname name (some proto) servnames =
      if (portOfName name).isSome then .error .attribute else .ok none := by
  obtain ⟨sss, h1, h2⟩ := table_parse
  rw [getservbyname_flat _ _ _ _ h1, h2, tableServs, search_proto]
  unfold portOfName
  cases List.find? (fun r => r.1 == name) knownServices <;> rfl

example : portOfName (chars! "https") = some 443 ∧ portOfName (chars! "sunrpc") = some 111 ∧ portOfName (chars! "nope") = none := by decide +kernel

end Acltk
