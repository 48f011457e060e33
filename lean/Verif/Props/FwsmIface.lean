import Verif.Model.FwsmIface
import Verif.Props.Iface
/-!
# C55: addresses of ASA interfaces
-/
namespace Acltk.Ifc
open Acltk

/-- The address and mask an address line names, with or without a standby address. -/
def writtenAddr : List String → Option (String × String)
  | ["ip", "address", a, m] => some (a, m)
  | ["ip", "address", a, m, "standby", _] => some (a, m)
  | _ => none

/-- Every address line of an accepted block gives the interface its address. -/
def AddressesKept (t : Tokens) (alias : String) (lines : List (List String)) : Prop :=
  ∀ i, fwsmInterface t alias lines = .ok i →
    ∀ l ∈ lines, ∀ a m, writtenAddr l = some (a, m) → ∀ x, ipAddress a.toList = .ok x →
      ∃ n, (x, n) ∈ i.addresses

theorem interfaceOf_ignored (alias : String) (pre post : List Line) :
    interfaceOf alias (pre ++ .ignored :: post) = interfaceOf alias (pre ++ post) := by
  unfold interfaceOf mkInterface
  simp only [List.map_append, List.map_cons, detailLoop_append, detailLoop]
  cases detailLoop { alias := alias } (pre.map Line.detail) <;> rfl

/-- **C55 is violated** by every line `ip address A M` without a standby address: the line has no
effect at all. -/
theorem C55_violated (t : Tokens) (alias : String) (pre post : List (List String)) (a m : String) :
    fwsmInterface t alias (pre ++ ["ip", "address", a, m] :: post) = fwsmInterface t alias (pre ++ post) := by
  unfold fwsmInterface
  have : fwsmLine t ["ip", "address", a, m] = .ignored := by
    unfold fwsmLine
    split <;> simp_all
  simp only [List.map_append, List.map_cons, this]
  exact interfaceOf_ignored _ _ _

/-- Every token matches. -/
def anyTokens : Tokens := ⟨fun _ => true, fun _ => true, fun _ => true, fun _ => true⟩

/-- The interface of a plain address line has no address. -/
theorem C55_violated_sample : ¬ AddressesKept anyTokens "Vlan1" [["nameif", "inside"], ["ip", "address", "10.0.0.1", "255.0.0.0"]] := by
  intro h
  have e : fwsmInterface anyTokens "Vlan1" [["nameif", "inside"], ["ip", "address", "10.0.0.1", "255.0.0.0"]] =
      .ok { alias := "Vlan1", nameif := some "inside" } := by decide +kernel
  obtain ⟨n, hn⟩ := h _ e _ (List.mem_cons_of_mem _ List.mem_cons_self) _ _ rfl ⟨.v4, 0x0a000001⟩ (by decide +kernel)
  cases hn

/-- A line with a standby address, tokens and all. -/
inductive StandbyLine (t : Tokens) : List String → String × String → Prop
  | ip (a m s : String) : t.ip4 a = true → t.ip4 m = true → t.ip4 s = true →
      StandbyLine t ["ip", "address", a, m, "standby", s] (a, m)
  | ipv6 (ap s : String) (a p : List Char) : splitOn '/' ap.toList = [a, p] → t.ip6 (String.ofList a) = true →
      t.int (String.ofList p) = true → t.ip6 s = true →
      StandbyLine t ["ipv6", "address", ap, "standby", s] (String.ofList a, String.ofList p)

theorem addressOf_fwsmLine {t : Tokens} {l : List String} {p : String × String} :
    addressOf (fwsmLine t l) = some p ↔ StandbyLine t l p := by
  constructor
  · intro h
    unfold fwsmLine at h
    split at h
    · cases h
    · split at h <;> cases h
    · split at h
      · rename_i hc
        simp only [Bool.and_eq_true] at hc
        cases h
        exact .ip _ _ _ hc.1.1 hc.1.2 hc.2
      · cases h
    · split at h
      · rename_i hs
        split at h
        · rename_i hc
          simp only [Bool.and_eq_true] at hc
          cases h
          exact .ipv6 _ _ _ _ hs hc.1.1 hc.1.2 hc.2
        · cases h
      · cases h
    · cases h
  · intro h
    cases h with
    | ip a m s h1 h2 h3 => simp [fwsmLine, h1, h2, h3, addressOf]
    | ipv6 ap s a p h1 h2 h3 h4 => simp [fwsmLine, h1, h2, h3, h4, addressOf]

/-- `ps` are the values of the lines that have one, in order. -/
inductive Picks {α β : Type} (R : α → β → Prop) : List α → List β → Prop
  | nil : Picks R [] []
  | take {x : α} {y : β} {l : List α} {m : List β} : R x y → Picks R l m → Picks R (x :: l) (y :: m)
  | skip {x : α} {l : List α} {m : List β} : (∀ y, ¬ R x y) → Picks R l m → Picks R (x :: l) m

theorem picks_filterMap {α β : Type} {R : α → β → Prop} {f : α → Option β} (hf : ∀ x y, f x = some y ↔ R x y)
    (l : List α) : Picks R l (l.filterMap f) := by
  induction l with
  | nil => exact .nil
  | cons x l ih =>
    cases hx : f x with
    | none =>
      rw [List.filterMap_cons_none hx]
      exact .skip (fun y hy => by rw [(hf x y).2 hy] at hx; cases hx) ih
    | some y =>
      rw [List.filterMap_cons_some hx]
      exact .take ((hf x y).1 hx) ih

/-- **C55, the part that holds**: the addresses of an accepted block are those of its address lines
with a standby address, all of them and in order. -/
theorem C55_standby_partial (t : Tokens) (alias : String) (lines : List (List String)) (i : Intf)
    (h : fwsmInterface t alias lines = .ok i) :
    ∃ ps, Picks (StandbyLine t) lines ps ∧ ps.map (fun p => mkIfAddr p.1 p.2) = i.addresses.map .ok := by
  refine ⟨_, picks_filterMap (fun _ _ => addressOf_fwsmLine) lines, ?_⟩
  have := (C56_interface_attributes alias _ i h).2.2.2.1
  rw [List.filterMap_map] at this
  exact this

/-- An accepted block with an address. -/
theorem C55_sample : ∃ i, fwsmInterface anyTokens "Vlan1"
    [["nameif", "inside"], ["ip", "address", "10.0.0.1", "255.0.0.0", "standby", "10.0.0.2"], ["no", "shutdown"]] = .ok i ∧
    i.addresses = [(⟨.v4, 0x0a000001⟩, ⟨.v4, 0x0a000000, 8⟩)] := by
  exact ⟨⟨"Vlan1", [(⟨.v4, 0x0a000001⟩, ⟨.v4, 0x0a000000, 8⟩)], [], some "inside", none, none⟩, by decide +kernel, rfl⟩

end Acltk.Ifc
