import Verif.Props.ExpandPage
import Verif.Props.FwsmSettledSample
/-!
# C114: a text with a group in a group
-/
namespace Acltk.Page
open Acltk Acltk.FwsmText Acltk.Resolve

/-- A network group with another one as a member. -/
def nestedText : List Char :=
  "object-group network a\n network-object host 10.0.0.1\nobject-group network b\n group-object a\n network-object host 10.0.0.2\n".toList

/-- The shape of its elements. -/
def isNested : List FwsmText.Item → Bool
  | [.netGroup a [.host _] _, .netGroup b [.group c _, .host _] _] => a == "a" && b == "b" && c == "a"
  | _ => false

theorem nested_cases {items : List FwsmText.Item} (h : isNested items = true) :
    ∃ x d m y d', items = [.netGroup "a" [.host x] d, .netGroup "b" [.group "a" m, .host y] d'] := by
  unfold isNested at h
  split at h
  · simp only [Bool.and_eq_true, beq_iff_eq] at h
    obtain ⟨⟨rfl, rfl⟩, rfl⟩ := h
    exact ⟨_, _, _, _, _, rfl⟩
  · cases h

theorem nested_parsed : ∃ items, parseFile Lookup.tatsuGuard nestedText = .ok items [] ∧ isNested items = true := by
  have : (match parseFile Lookup.tatsuGuard nestedText with | .ok items [] => isNested items | _ => false) = true := by decide +kernel
  split at this
  · rename_i items h
    exact ⟨items, h, this⟩
  · cases this

end Acltk.Page

namespace Acltk.Static
open Acltk Acltk.Resolve Acltk.Detect Acltk.Lookup Acltk.DetectText
open Acltk.Page (nestedText nested_parsed nested_cases Once Kept defName NewServices Expanded Flat LastAt Part Each HostAt)

theorem flat_item {heap : Oid → Page.Obj} {svc : Oid → Oid} {q : Oid} {t : Option Oid} (h : heap q = .address t) {l l' : List El} (F : Flat heap svc .network (.obj q :: l) l') :
    ∃ b, l' = .obj q :: b ∧ Flat heap svc .network l b := by
  cases F with
  | group e => rw [h] at e; cases e
  | addresses _ e => rw [h] at e; cases e
  | service hc => cases hc
  | item _ _ _ hf => exact ⟨_, rfl, hf⟩

theorem flat_nil {heap : Oid → Page.Obj} {svc : Oid → Oid} {l' : List El} (F : Flat heap svc .network [] l') : l' = [] := by cases F; rfl

/-- The hypotheses of C114 are met by a text with a group `b` of the group `a` and an address; after the expansion `b` has the address of `a` in place of `a`. -/
theorem C114_sample {T : Type} (xml : String → Option Pf.Elem) (v : Pf.Env T) : ∃ t items objs svc,
    detect tatsuGuard (PfFilter.parser xml v) t = .config (.fwsm items) ∧ ObjectsOf (T := T) objs (.fwsm items) ∧ NewServices objs svc ∧
    ∃ e1 e2, objs 0 = .group .network "a" [e1] ∧ objs 1 = .group .network "b" [.obj 0, e2] ∧
      ∃ fuel objs', Page.expand svc fuel (tables (T := T) (.fwsm items)) objs = .ok objs' ∧ objs' 0 = .group .network "a" [e1] ∧ objs' 1 = .group .network "b" [e1, e2] := by
  obtain ⟨items, hp, hn⟩ := nested_parsed
  obtain ⟨x, d, m, y, d', rfl⟩ := nested_cases hn
  have e : nestedText = nestedText.dropLast ++ ['\n'] := by decide +kernel
  have hp' := hp
  rw [e] at hp'
  have hd := fwsm_accepts (pf := PfFilter.parser xml v) hp'
  have B := Page.C108_objects hp
  have ho : Once [.netGroup "a" [.host x] d, .netGroup "b" [.group "a" m, .host y] d'] := by
    intro c n p q i j hi hj hp hq
    match p, q, hi, hj with
    | 0, 0, _, _ => rfl
    | 1, 1, _, _ => rfl
    | 0, 1, hi, hj =>
      cases hi; cases hj
      cases c <;> simp [defName] at hp hq
      rw [← hp] at hq
      exact absurd hq (by decide)
    | 1, 0, hi, hj =>
      cases hi; cases hj
      cases c <;> simp [defName] at hp hq
      rw [← hp] at hq
      exact absurd hq (by decide)
    | p + 2, _, hi, _ => cases hi
    | 0, q + 2, _, hj => cases hj
    | 1, q + 2, _, hj => cases hj
  have hB : ObjectsOf (T := T) _ (.fwsm _) := ⟨B, Page.once_settled ho⟩
  have hsvc : NewServices (Page.objsOf [.netGroup "a" [.host x] d, .netGroup "b" [.group "a" m, .host y] d']) (fun _ => 4) := by
    obtain ⟨q, h1, -, h2⟩ := Page.part_other (items := [.netGroup "a" [.host x] d, .netGroup "b" [.group "a" m, .host y] d'])
    cases h1
    intro _ _ _
    exact h2
  obtain ⟨N, hN⟩ := C114_text hd hB hsvc
  obtain ⟨objs', hx, E⟩ := hN N (Nat.le_refl _)
  refine ⟨_, _, _, _, hd, hB, hsvc, ?_⟩
  obtain ⟨ms0, h0, l0, r0⟩ := B.item 0 _ rfl
  obtain ⟨ms1, h1, l1, r1⟩ := B.item 1 _ rfl
  match ms0, l0 with
  | [e1], _ =>
  match ms1, l1 with
  | [e0, e2], _ =>
  obtain ⟨q1, rfl, -, t1, a1⟩ := r0 0 _ _ rfl rfl
  have g0 := r1 0 _ _ rfl rfl
  obtain ⟨q2, rfl, -, t2, a2⟩ := r1 1 _ _ rfl rfl
  have g0 : e0 = .obj 0 := g0 0 ⟨by decide, ⟨_, _, rfl, rfl⟩, fun q i v h1 h2 => absurd h1 (by omega)⟩
  subst g0
  have listed := (C108_listed hd B).2.2.2.2
  have kept : ∀ {p : Nat} {n : String} {i}, ([.netGroup "a" [.host x] d, .netGroup "b" [.group "a" m, .host y] d'] : List FwsmText.Item)[p]? = some i → defName .netGroup i = some n →
      Kept [.netGroup "a" [.host x] d, .netGroup "b" [.group "a" m, .host y] d'] .netGroup n p := by
    intro p n i hi hn
    refine ⟨⟨i, hi, hn⟩, fun q j hj hq => ?_⟩
    rw [ho .netGroup n p q i j hi hj hn hq]
    split <;> exact Nat.le_refl _
  have k0 := (listed .netGroup "a" 0).2 ⟨0, kept rfl rfl, rfl⟩
  have k1 := (listed .netGroup "b" 1).2 ⟨1, kept rfl rfl, rfl⟩
  obtain ⟨m0, F0, x0⟩ := E.listed .network "a" 0 "a" _ k0 h0
  obtain ⟨m1, F1, x1⟩ := E.listed .network "b" 1 "b" _ k1 h1
  obtain ⟨b, rfl, F2⟩ := flat_item a1 F0
  cases flat_nil F2
  cases F1 with
  | addresses _ e => rw [h0] at e; cases e
  | service hc => cases hc
  | item hg => exact absurd h0 (hg 0 _ _ rfl)
  | group e Fa Fb =>
    rw [h0] at e
    cases e
    obtain ⟨b, rfl, Fc⟩ := flat_item a1 Fa
    cases flat_nil Fc
    obtain ⟨b, rfl, Fd⟩ := flat_item a2 Fb
    cases flat_nil Fd
    exact ⟨_, _, h0, h1, N, objs', hx, x0, x1⟩

end Acltk.Static
