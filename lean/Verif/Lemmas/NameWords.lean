import Verif.Lemmas.FwsmHosts
/-!
# The addresses of the names of whatever text is accepted
-/
namespace Acltk.FwsmText
open Acltk Acltk.Lookup Acltk.Peg

variable {g : Guard}

def NameItem : Item → Prop
  | .name _ a _ => a.Valid
  | _ => True

def NameOut (x : Item × St) : Prop := NameItem x.1 ∧ True

theorem name_keep {s : St} {p : P Item} (hp : Val p NameItem) : Val (keep s p) NameOut :=
  Val.bind hp fun _ hi => Val.pure ⟨hi, trivial⟩

theorem name_command {s : St} : Val (command s) NameOut := by
  unfold command
  dsimp only
  refine Val.alts_cons (name_keep ?_) <| Val.alts_cons (name_keep ?_) <| Val.alts_cons (name_keep ?_) <|
    Val.alts_cons ?_ <| Val.alts_cons ?_ <| Val.alts_cons ?_ <|
    Val.alts_cons ?_ <| Val.alts_cons ?_ <| Val.alts_cons (name_keep ?_) <|
    Val.alts_cons (name_keep ?_) <| Val.alts_cons (name_keep ?_) <| Val.alts_cons (name_keep ?_) <|
    Val.alts_cons (name_keep ?_) <| Val.alts_cons (name_keep ?_) Val.alts_nil
  · exact Val.skip fun _ => Val.skip fun _ => Val.pure trivial
  · exact Val.skip fun _ => Val.skip fun _ => Val.skip fun _ => Val.skip fun _ => Val.pure trivial
  · exact Val.skip fun _ => Val.skip fun _ => Val.skip fun _ => Val.pure trivial
  · unfold interface
    exact Val.skip fun _ => Val.skip fun _ => Val.skip fun _ => Val.skip fun _ => Val.skip fun _ => Val.skip fun _ => Val.pure ⟨trivial, trivial⟩
  · unfold name
    exact Val.skip fun _ => Val.skip fun _ => Val.bind (Val.alt val_ip4 val_ip6) fun a ha => Val.skip fun _ => Val.skip fun _ =>
      Val.skip fun _ => Val.skip fun _ => Val.pure ⟨ha, trivial⟩
  · unfold timeRange
    exact Val.skip fun _ => Val.skip fun _ => Val.skip fun _ => Val.skip fun _ => Val.skip fun _ => Val.skip fun _ =>
      Val.pure ⟨trivial, trivial⟩
  · unfold object
    refine Val.skip fun _ => Val.skip fun _ => Val.alt ?_ ?_
    · unfold objectNetwork
      dsimp only
      exact Val.skip fun _ => Val.skip fun _ => Val.skip fun _ => Val.skip fun _ => Val.skip fun _ => Val.skip fun _ => Val.skip fun _ => Val.pure ⟨trivial, trivial⟩
    · unfold objectService
      dsimp only
      exact Val.skip fun _ => Val.skip fun _ => Val.skip fun _ => Val.skip fun _ => Val.skip fun _ => Val.skip fun _ => Val.pure ⟨trivial, trivial⟩
  · unfold objectGroup objectGroupType
    dsimp only
    refine Val.skip fun _ => Val.skip fun _ => Val.alts_cons ?_ <| Val.alts_cons ?_ <| Val.alts_cons ?_ <| Val.alts_cons ?_ <|
      Val.alts_cons ?_ Val.alts_nil
    · exact Val.skip fun _ => Val.skip fun ⟨n, d, l⟩ => Val.pure ⟨trivial, trivial⟩
    · exact Val.skip fun _ => Val.skip fun _ => Val.skip fun _ => Val.skip fun _ => Val.skip fun _ =>
        Val.skip fun _ => Val.skip fun _ => Val.skip fun _ => Val.skip fun _ => Val.skip fun _ => Val.pure ⟨trivial, trivial⟩
    · exact Val.skip fun _ => Val.skip fun ⟨n, d, l⟩ => Val.pure ⟨trivial, trivial⟩
    · exact Val.skip fun _ => Val.skip fun ⟨n, d, l⟩ => Val.pure ⟨trivial, trivial⟩
    · exact Val.skip fun _ => Val.skip fun ⟨n, d, l⟩ => Val.pure ⟨trivial, trivial⟩
  · refine Val.skip fun r => Val.pure ?_
    cases r <;> trivial
  · exact Val.skip fun _ => Val.pure trivial
  · unfold accessGroup
    refine Val.alt ?_ ?_
    · exact Val.skip fun _ => Val.skip fun _ => Val.skip fun _ => Val.skip fun _ => Val.skip fun _ => Val.skip fun _ => Val.skip fun _ => Val.skip fun _ => Val.skip fun _ => Val.skip fun _ => Val.skip fun _ =>
        Val.pure trivial
    · exact Val.skip fun _ => Val.skip fun _ => Val.skip fun _ => Val.skip fun _ => Val.skip fun _ => Val.skip fun _ => Val.skip fun _ =>
        Val.pure trivial
  · unfold nat
    refine Val.alt ?_ ?_
    · refine Val.skip fun _ => Val.skip fun _ => Val.skip fun _ => Val.skip fun _ => Val.skip fun _ => Val.skip fun src =>
        Val.skip fun dst => Val.skip fun _ => Val.skip fun _ => Val.skip fun _ => Val.skip fun _ => Val.skip fun n => Val.pure ?_
      cases n <;> trivial
    · exact Val.skip fun _ => Val.skip fun _ => Val.skip fun _ => Val.skip fun _ => Val.skip fun _ => Val.skip fun _ => Val.pure trivial
  · unfold ignored
    refine Val.alts ?_
    intro p hp
    obtain ⟨kt, -, rfl⟩ := List.mem_map.1 hp
    exact Val.skip fun _ => Val.skip fun _ => Val.pure trivial
  · exact Val.skip fun _ => Val.pure trivial

theorem parseFile_names {t r : Text} {items : List Item} (h : parseFile g t = .ok items r) : ∀ i ∈ items, NameItem i := by
  unfold parseFile at h
  split at h
  · rename_i l s' hc
    split at h
    · cases h
    · cases h
      exact (commands_inv (S := fun _ => True) (I := NameItem) (fun _ _ => name_command) _ _ _ _ _ _ rfl trivial hc).1
  · cases h
  · cases h
  · cases h

end Acltk.FwsmText
