import Verif.Props.FwsmObjects
import Verif.Props.FwsmSettled
import Verif.Props.FwsmNat
/-!
# C108: the hypotheses are met by a text with NAT
-/
namespace Acltk.Static
open Acltk Acltk.Resolve Acltk.Detect Acltk.Lookup Acltk.DetectText
open Acltk.Page (ObjectsOf Once Settled Kept Listed defName)
open Acltk.CafFilter (natItems natText)

theorem nat_parsed : FwsmText.parseFile tatsuGuard natText = .ok natItems [] := by
  obtain ⟨s, h⟩ := CafFilter.nat_file
  obtain ⟨items, hs, hp⟩ := FwsmText.C72_file_read_as_written _ FwsmText.tatsuGuard_name _ _ s h (by simp [natItems])
  have : items = natItems := by
    unfold natItems at hs ⊢
    cases hs with | cons _ _ _ _ h1 hs =>
    cases hs with | cons _ _ _ _ h2 hs =>
    cases hs with | cons _ _ _ _ h3 hs =>
    cases hs with | cons _ _ _ _ h4 hs =>
    cases hs with | cons _ _ _ _ h5 hs =>
    cases hs with | cons _ _ _ _ h6 hs =>
    cases hs; cases h1; cases h2; cases h3; cases h4; cases h5; cases h6
    rfl
  rw [← this]
  exact hp

theorem nat_once : Once natItems := by
  intro c n p q i j hi hj hp hq
  have key : ∀ (k : Nat) x, natItems[k]? = some x → defName c x = some n → (c = .netObj ∧ k = 2) ∨ (c = .svcObj ∧ k = 3) := by
    intro k x hx hd
    have hk : k < 6 := (List.getElem?_eq_some_iff.1 hx).1
    match k, hk with
    | 0, _ | 1, _ | 2, _ | 3, _ | 4, _ | 5, _ =>
      simp only [natItems, List.getElem?_cons_succ, List.getElem?_cons_zero, Option.some.injEq] at hx
      subst hx
      cases c <;> first | (simp [defName] at hd; done) | simp
  rcases key p i hi hp with ⟨h1, h2⟩ | ⟨h1, h2⟩ <;> rcases key q j hj hq with ⟨h3, h4⟩ | ⟨h3, h4⟩ <;> first | (rw [h2, h4]; done) | (rw [h1] at h3; cases h3)

/-- The hypotheses of C108 are met by a text with a network object with NAT, a service object and two NAT commands.  The page lists the three NAT entries, the
network object as an object of its own, and the service object. -/
theorem C108_sample {T : Type} (pf : String → Detect.Outcome (Nat × Pf.Parsed T) Unit) : ∃ t objs,
    detect tatsuGuard pf t = .config (.fwsm natItems) ∧ ObjectsOf objs natItems ∧ Settled natItems ∧
    (∀ o, o ∈ (tables (T := T) (.fwsm natItems)).nat ↔ o = 2 ∨ o = 4 ∨ o = 5) ∧
    Listed objs (tables (T := T) (.fwsm natItems)) .netObject "web" 8 ∧ Listed objs (tables (T := T) (.fwsm natItems)) .svcObject "h" 3 := by
  have e : natText = natText.dropLast ++ ['\n'] := by decide +kernel
  have hp := nat_parsed
  have hp' := hp
  rw [e] at hp'
  have hd := fwsm_accepts (pf := pf) hp'
  have B := Page.C108_objects hp
  refine ⟨_, _, hd, B, Page.once_settled nat_once, ?_⟩
  obtain ⟨-, -, h3, -, h5⟩ := C108_listed hd B
  have kept : ∀ {c : Config.Kind} {n : String} {p : Nat} {i}, natItems[p]? = some i → defName c i = some n → Kept natItems c n p := by
    intro c n p i hi hd
    refine ⟨⟨i, hi, hd⟩, fun q j hj hq => ?_⟩
    rw [nat_once c n p q i j hi hj hd hq]
    split <;> exact Nat.le_refl _
  refine ⟨fun o => ?_, ?_, ?_⟩
  · rw [h3]
    constructor
    · have hk : ∀ x, natItems[o]? = some x → o < 6 := fun x hx => (List.getElem?_eq_some_iff.1 hx).1
      rintro (⟨x, h⟩ | ⟨n, l, x, d, h⟩) <;> (
        have := hk _ h
        match o, this with
        | 0, _ | 1, _ | 2, _ | 3, _ | 4, _ | 5, _ => first | (simp [natItems] at h; done) | simp)
    · rintro (rfl | rfl | rfl)
      · exact Or.inr ⟨_, _, _, _, rfl⟩
      · exact Or.inl ⟨_, rfl⟩
      · exact Or.inl ⟨_, rfl⟩
  · exact (h5 .netObj "web" 8).2 ⟨2, kept rfl rfl, rfl⟩
  · exact (h5 .svcObj "h" 3).2 ⟨3, kept rfl rfl, rfl⟩

end Acltk.Static
