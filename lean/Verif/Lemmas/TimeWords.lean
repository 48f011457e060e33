import Verif.Lemmas.RowWords
import Verif.Lemmas.SectionWords
import Verif.Spec.TimeSectionSpec
/-!
# The time ranges of whatever text is accepted
-/
namespace Acltk.Cells
open Acltk Acltk.FwsmText

def ClockOk (t : Time) : Prop := t.hour < 24 ∧ t.minute < 60

def DateOk (d : Date) : Prop := 1 ≤ d.month ∧ d.month ≤ 12

/-- What printing a range needs. -/
def RangeOk : TimeObj → Prop
  | .absolute a b => (∀ d, a = some d → DateOk d) ∧ ∀ d, b = some d → DateOk d
  | .periodic ds _ e _ => ds ≠ [] ∧ (∀ d ∈ ds, d ∈ dayNames) ∧ ∀ d, e = some d → d ∈ dayNames

end Acltk.Cells

namespace Acltk.FwsmText
open Acltk Acltk.Lookup Acltk.Peg Acltk.Cells

variable {g : Guard}

theorem val_timedate : Val (timedate g) DateOk := by
  unfold timedate
  refine Val.skip fun _ => Val.skip fun _ => Val.skip fun _ => Val.skip fun _ => Val.skip fun _ => Val.skip fun _ => Val.skip fun _ => Val.act fun d h => ?_
  unfold checkDate at h
  split at h
  · rename_i hc
    cases h
    exact ⟨hc.2.2.1, hc.2.2.2.1⟩
  · cases h

theorem many1_ne {α : Type} {p : P α} : Val (many1 p) (· ≠ []) := by
  intro t l r h
  unfold many1 at h
  split at h
  · split at h <;> cases h
    simp
  · cases h
  · cases h

theorem Val.and {α : Type} {p : P α} {V W : α → Prop} (h : Val p V) (h' : Val p W) : Val p (fun a => V a ∧ W a) := fun t a r e => ⟨h t a r e, h' t a r e⟩

theorem week_days {d : String} (h : d ∈ weekdays) : d ∈ dayNames := by
  simp only [weekdays, dayNames, List.mem_cons, List.not_mem_nil, or_false] at h ⊢
  rcases h with h | h | h | h | h | h | h <;> simp [h]

theorem val_timeRangeObject : Val (timeRangeObject g) (fun o => ∀ x, o = some x → RangeOk x) := by
  unfold timeRangeObject
  refine Val.alts_cons ?_ <| Val.alts_cons ?_ <| Val.alts_cons ?_ <| Val.alts_cons ?_ Val.alts_nil
  · refine Val.skip fun _ => Val.skip fun _ => Val.bind (Val.and many1_ne (Val.many1 (val_oneOf _))) fun ds hd => Val.skip fun _ => Val.skip fun a => Val.skip fun _ =>
      Val.skip fun _ => Val.skip fun _ => Val.bind (Val.opt (V := (· ∈ weekdays)) (Val.bind (val_oneOf _) fun d h => Val.skip fun _ => Val.pure h)) fun e he => Val.skip fun b => Val.skip fun _ => Val.pure ?_
    intro x hx
    cases hx
    exact ⟨hd.1, fun d h => week_days (hd.2 d h), fun d h => week_days (he d h)⟩
  · refine Val.skip fun _ => Val.skip fun _ => Val.bind (val_oneOf _) fun d hd => Val.skip fun _ => Val.skip fun a => Val.skip fun _ =>
      Val.skip fun _ => Val.skip fun _ => Val.skip fun b => Val.skip fun _ => Val.pure ?_
    intro x hx
    cases hx
    refine ⟨by simp, fun y hy => ?_, fun d h => by cases h⟩
    rw [List.mem_singleton] at hy
    subst hy
    simp only [dayNames, List.mem_cons, List.not_mem_nil, or_false] at hd ⊢
    rcases hd with h | h | h <;> simp [h]
  · refine Val.skip fun _ => Val.bind (Val.opt (V := DateOk) (Val.skip fun _ => Val.skip fun _ => Val.skip fun _ => val_timedate)) fun a ha =>
      Val.bind (Val.opt (V := DateOk) (Val.skip fun _ => Val.skip fun _ => Val.skip fun _ => val_timedate)) fun b hb => Val.skip fun _ => Val.pure ?_
    intro x hx
    cases hx
    exact ⟨ha, hb⟩
  · exact Val.skip fun _ => Val.skip fun _ => Val.skip fun _ => Val.skip fun _ => Val.pure fun x hx => by cases hx

def TimeItem : Item → Prop
  | .timeRange _ _ l => ∀ x ∈ l, RangeOk x
  | _ => True

def TimeOut (x : Item × St) : Prop := TimeItem x.1 ∧ True

theorem time_keep {s : St} {p : P Item} (hp : Val p TimeItem) : Val (keep s p) TimeOut :=
  Val.bind hp fun _ hi => Val.pure ⟨hi, trivial⟩

theorem time_command {s : St} : Val (command s) TimeOut := by
  unfold command
  dsimp only
  refine Val.alts_cons (time_keep ?_) <| Val.alts_cons (time_keep ?_) <| Val.alts_cons (time_keep ?_) <|
    Val.alts_cons ?_ <| Val.alts_cons ?_ <| Val.alts_cons ?_ <|
    Val.alts_cons ?_ <| Val.alts_cons ?_ <| Val.alts_cons (time_keep ?_) <|
    Val.alts_cons (time_keep ?_) <| Val.alts_cons (time_keep ?_) <| Val.alts_cons (time_keep ?_) <|
    Val.alts_cons (time_keep ?_) <| Val.alts_cons (time_keep ?_) Val.alts_nil
  · exact Val.skip fun _ => Val.skip fun _ => Val.pure trivial
  · exact Val.skip fun _ => Val.skip fun _ => Val.skip fun _ => Val.skip fun _ => Val.pure trivial
  · exact Val.skip fun _ => Val.skip fun _ => Val.skip fun _ => Val.pure trivial
  · unfold interface
    exact Val.skip fun _ => Val.skip fun _ => Val.skip fun _ => Val.skip fun _ => Val.skip fun _ => Val.skip fun _ => Val.pure ⟨trivial, trivial⟩
  · unfold name
    exact Val.skip fun _ => Val.skip fun _ => Val.skip fun _ => Val.skip fun _ => Val.skip fun _ =>
      Val.skip fun _ => Val.skip fun _ => Val.pure ⟨trivial, trivial⟩
  · unfold timeRange
    refine Val.skip fun _ => Val.skip fun _ => Val.skip fun _ => Val.skip fun _ =>
      Val.bind (V := fun l => ∀ o ∈ l, ∀ x, o = some x → RangeOk x) (Val.many (Val.skip fun _ => val_timeRangeObject)) fun l hl =>
      Val.bind (V := fun m => ∀ x ∈ m, RangeOk x) (Val.act fun m hm x hx => hl _ (addAll_mem hm x hx) x rfl) fun m hm => Val.pure ⟨hm, trivial⟩
  · unfold object
    refine Val.skip fun _ => Val.skip fun _ => Val.alt ?_ ?_
    · unfold objectNetwork
      dsimp only
      exact Val.skip fun _ => Val.skip fun _ => Val.skip fun _ => Val.skip fun _ => Val.skip fun _ => Val.skip fun _ => Val.skip fun _ => Val.pure ⟨trivial, trivial⟩
    · unfold objectService
      dsimp only
      exact Val.skip fun _ => Val.skip fun _ => Val.skip fun _ => Val.skip fun _ => Val.skip fun _ => Val.skip fun _ => Val.pure ⟨trivial, trivial⟩
  · unfold objectGroup objectGroupType
    dsimp only
    refine Val.skip fun _ => Val.skip fun _ => Val.alts_cons ?_ <| Val.alts_cons ?_ <| Val.alts_cons ?_ <| Val.alts_cons ?_ <|
      Val.alts_cons ?_ Val.alts_nil
    · exact Val.skip fun _ => Val.skip fun ⟨n, d, l⟩ => Val.pure ⟨trivial, trivial⟩
    · exact Val.skip fun _ => Val.skip fun _ => Val.skip fun _ => Val.skip fun _ => Val.skip fun _ =>
        Val.skip fun _ => Val.skip fun _ => Val.skip fun _ => Val.skip fun _ => Val.skip fun _ => Val.pure ⟨trivial, trivial⟩
    · exact Val.skip fun _ => Val.skip fun ⟨n, d, l⟩ => Val.pure ⟨trivial, trivial⟩
    · exact Val.skip fun _ => Val.skip fun ⟨n, d, l⟩ => Val.pure ⟨trivial, trivial⟩
    · exact Val.skip fun _ => Val.skip fun ⟨n, d, l⟩ => Val.pure ⟨trivial, trivial⟩
  · refine Val.skip fun r => Val.pure ?_
    cases r <;> trivial
  · exact Val.skip fun _ => Val.pure trivial
  · unfold accessGroup
    refine Val.alt ?_ ?_
    · exact Val.skip fun _ => Val.skip fun _ => Val.skip fun _ => Val.skip fun _ => Val.skip fun _ => Val.skip fun _ => Val.skip fun _ => Val.skip fun _ => Val.skip fun _ => Val.skip fun _ => Val.skip fun _ =>
        Val.pure trivial
    · exact Val.skip fun _ => Val.skip fun _ => Val.skip fun _ => Val.skip fun _ => Val.skip fun _ => Val.skip fun _ => Val.skip fun _ =>
        Val.pure trivial
  · unfold nat
    refine Val.alt ?_ ?_
    · refine Val.skip fun _ => Val.skip fun _ => Val.skip fun _ => Val.skip fun _ => Val.skip fun _ => Val.skip fun src =>
        Val.skip fun dst => Val.skip fun _ => Val.skip fun _ => Val.skip fun _ => Val.skip fun _ => Val.skip fun n => Val.pure ?_
      cases n <;> trivial
    · exact Val.skip fun _ => Val.skip fun _ => Val.skip fun _ => Val.skip fun _ => Val.skip fun _ => Val.skip fun _ => Val.pure trivial
  · unfold ignored
    refine Val.alts ?_
    intro p hp
    obtain ⟨kt, -, rfl⟩ := List.mem_map.1 hp
    exact Val.skip fun _ => Val.skip fun _ => Val.pure trivial
  · exact Val.skip fun _ => Val.pure trivial

theorem parseFile_times {t r : Text} {items : List Item} (h : parseFile g t = .ok items r) : ∀ i ∈ items, TimeItem i := by
  unfold parseFile at h
  split at h
  · rename_i l s' hc
    split at h
    · cases h
    · cases h
      exact (commands_inv (S := fun _ => True) (I := TimeItem) (fun _ _ => time_command) _ _ _ _ _ _ rfl trivial hc).1
  · cases h
  · cases h
  · cases h

end Acltk.FwsmText
