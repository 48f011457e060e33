import Verif.Spec.WebConcSpec
import Verif.Props.Web
/-!
# C110: requests at the same time
-/
namespace Acltk.Web
open Acltk Acltk.Lookup Acltk.Detect Acltk.DetectText

variable {T : Type}

/-- What is left of a request that has not been answered, as long as the shelf does not lose what it has found there. -/
def Pending (a : App T) (db : Shelf T) (r : Request) (p : Prog T) : Prop :=
  p = progOf a r ∨ ∃ args n, r = .showGet args ∧ args.config = some n ∧ p = .get n (showRest a args) ∧ (dGet db n).isSome

theorem showRest_done (a : App T) (db : Shelf T) (args : Args) (n : String) (hn : args.config = some n) (h : (dGet db n).isSome) :
    showRest a args (dGet db n) = .done (showPage a db args) := by
  cases hc : dGet db n with
  | none => rw [hc] at h; cases h
  | some c =>
    simp only [showRest, showPage, hn, hc]
    cases he : (if truthy args.exp then a.expand c else .ok (ExpandFilter.heapOf c)) with
    | error e => rfl
    | ok heap =>
      simp only
      cases hr : runFilter a (truthy args.exp) heap c args.caf with
      | none => rfl
      | some x => rfl

/-- A program without operations gives the answer of the request. -/
theorem progOf_done {a : App T} {r : Request} {ans : Answer T} (h : progOf a r = .done ans) (db : Shelf T) : handle a db r = (db, ans) := by
  cases r with
  | addPost f =>
    cases f with
    | none => cases h; rfl
    | some file =>
      simp only [progOf] at h
      show add a db (some file) = _
      simp only [add]
      split at h <;> cases h <;> simp_all
  | addGet => cases h; rfl
  | indexGet => cases h
  | indexPost => cases h; rfl
  | showGet args =>
    simp only [progOf] at h
    split at h
    · cases h
      rename_i hn
      simp only [handle, showPage, hn]
    · cases h
  | showPost => cases h; rfl

/-- One operation of an unanswered request: it is answered as if the whole request were handled now, or nothing has changed for the others. -/
theorem pending_step {a : App T} {db : Shelf T} {r : Request} {p : Prog T} (h : Pending a db r p) (hp : ∀ ans, p ≠ .done ans) :
    (∃ ans, p.step db = ((handle a db r).1, .done ans) ∧ ans = (handle a db r).2) ∨
    ∃ p', p.step db = (db, p') ∧ (∀ ans, p' ≠ .done ans) ∧ Pending a db r p' := by
  rcases h with rfl | ⟨args, n, rfl, hn, rfl, hs⟩
  · cases r with
    | addPost f =>
      cases f with
      | none => exact absurd rfl (hp _)
      | some file =>
        simp only [progOf] at hp ⊢
        show (∃ ans, _ = ((add a db (some file)).1, _) ∧ ans = (add a db (some file)).2) ∨ _
        simp only [add]
        split at hp
        · exact absurd rfl (hp _)
        · exact absurd rfl (hp _)
        · rename_i c hc
          simp only [hc]
          exact Or.inl ⟨_, rfl, rfl⟩
    | addGet => exact absurd rfl (hp _)
    | indexGet => exact Or.inl ⟨_, rfl, rfl⟩
    | indexPost => exact absurd rfl (hp _)
    | showGet args =>
      cases hn : args.config with
      | none => exact absurd (by simp only [progOf, hn]) (hp .serverError)
      | some n =>
        simp only [progOf, hn, Prog.step]
        cases hs : (dGet db n).isSome with
        | false =>
          refine Or.inl ⟨_, rfl, ?_⟩
          show _ = showPage a db args
          have : dGet db n = none := by simpa using hs
          simp only [showPage, hn, this]
        | true =>
          refine Or.inr ⟨_, rfl, ?_, Or.inr ⟨args, n, rfl, hn, rfl, hs⟩⟩
          intro ans h
          cases h
    | showPost => exact absurd rfl (hp _)
  · refine Or.inl ⟨_, ?_, rfl⟩
    simp only [Prog.step, showRest_done a db args n hn hs]
    rfl

theorem pending_mono {a : App T} {db : Shelf T} {r q : Request} {p : Prog T} (h : Pending a db r p) : Pending a (handle a db q).1 r p := by
  rcases h with h | ⟨args, n, h1, h2, h3, hs⟩
  · exact Or.inl h
  · refine Or.inr ⟨args, n, h1, h2, h3, ?_⟩
    by_cases hu : ∃ m c, Uploads a q m c
    · obtain ⟨m, c, hu⟩ := hu
      rw [handle_upload hu]
      show (dGet (dSet db m c) n).isSome
      by_cases hnm : n = m
      · subst hnm; rw [dGet_dSet_same]; rfl
      · rw [dGet_dSet_other _ _ hnm]; exact hs
    · rw [handle_other (fun m c h => hu ⟨m, c, h⟩)]
      exact hs

/-- It has been answered. -/
def isDone : Prog T → Bool
  | .done _ => true
  | _ => false

theorem isDone_iff {p : Prog T} : isDone p = true ↔ ∃ ans, p = .done ans := by
  cases p <;> simp [isDone]

/-- The order in which the requests are answered, as the events go by. -/
def track (a : App T) (x : Sys T × List Nat) (e : Event) : Sys T × List Nat :=
  (x.1.step a e,
    match e with
    | .arrive r => if isDone (progOf a r) then x.2 ++ [x.1.procs.length] else x.2
    | .run i =>
      match x.1.procs[i]? with
      | none => x.2
      | some (_, p) => if isDone p then x.2 else if isDone (p.step x.1.db).2 then x.2 ++ [i] else x.2)

structure Inv (a : App T) (db : Shelf T) (s : Sys T) (order : List Nat) : Prop where
  seq : Sequential a db s order
  pending : ∀ (i : Nat) r p, s.procs[i]? = some (r, p) → (∀ ans, p ≠ .done ans) → Pending a s.db r p

theorem requests_congr {s s' : Sys T} {order : List Nat} (h : ∀ i ∈ order, (s'.procs[i]?).map (·.1) = (s.procs[i]?).map (·.1)) :
    s'.requests order = s.requests order := by
  unfold Sys.requests
  induction order with
  | nil => rfl
  | cons i t ih =>
    rw [List.filterMap_cons, List.filterMap_cons, h i (by simp), ih (fun j hj => h j (by simp [hj]))]

theorem requests_append (s : Sys T) (l m : List Nat) : s.requests (l ++ m) = s.requests l ++ s.requests m := by
  unfold Sys.requests; rw [List.filterMap_append]

/-- Adding one answered request at the end. -/
theorem sequential_snoc {a : App T} {db : Shelf T} {s s' : Sys T} {order : List Nat} (S : Sequential a db s order) (i : Nat) (r : Request) (ans : Answer T)
    (hi : i ∉ order) (hreq : ∀ j ∈ order, (s'.procs[j]?) = s.procs[j]?)
    (hmem : ∀ j, (∃ r ans, Answered s' j r ans) ↔ j = i ∨ ∃ r ans, Answered s j r ans)
    (hans : Answered s' i r ans) (hdb : s'.db = (handle a s.db r).1) (hr : ans = (handle a s.db r).2) : Sequential a db s' (order ++ [i]) where
  nodup := by
    rw [List.nodup_append]
    refine ⟨S.nodup, by simp, ?_⟩
    intro x hx y hy
    rw [List.mem_singleton.1 hy]
    rintro rfl
    exact hi hx
  mem j := by
    rw [List.mem_append, List.mem_singleton, S.mem, hmem]
    exact Or.comm
  shelf := by
    rw [requests_append, serve_append, requests_congr (s := s) (fun j hj => by rw [hreq j hj]), ← S.shelf, hdb]
    have : s'.requests [i] = [r] := by
      unfold Sys.requests
      rw [List.filterMap_cons, hans]
      rfl
    rw [this]
    rfl
  answers l j m r' ans' e h := by
    rcases List.eq_nil_or_concat m with rfl | ⟨m', x, rfl⟩
    · obtain ⟨e1, e2⟩ := List.append_inj' e rfl
      cases e2
      subst e1
      have : (r', ans') = (r, ans) := by
        unfold Answered at h hans
        rw [hans] at h
        cases h
        rfl
      cases this
      rw [requests_congr (s := s) (fun j hj => by rw [hreq j hj]), ← S.shelf]
      exact hr
    · rw [List.concat_eq_append, show l ++ j :: (m' ++ [x]) = (l ++ j :: m') ++ [x] by simp] at e
      obtain ⟨e1, -⟩ := List.append_inj' e rfl
      subst e1
      rw [requests_congr (s := s) (fun j hj => by rw [hreq j (by simp [hj])])]
      refine S.answers l j m' r' ans' rfl ?_
      unfold Answered at h ⊢
      rw [← h]
      exact (hreq j (by simp)).symm

/-- Nothing was answered. -/
theorem sequential_same {a : App T} {db : Shelf T} {s s' : Sys T} {order : List Nat} (S : Sequential a db s order)
    (hreq : ∀ j ∈ order, (s'.procs[j]?) = s.procs[j]?)
    (hmem : ∀ j, (∃ r ans, Answered s' j r ans) ↔ ∃ r ans, Answered s j r ans) (hdb : s'.db = s.db) : Sequential a db s' order where
  nodup := S.nodup
  mem j := by rw [S.mem, hmem]
  shelf := by rw [requests_congr (s := s) (fun j hj => by rw [hreq j hj]), ← S.shelf, hdb]
  answers l j m r' ans' e h := by
    subst e
    rw [requests_congr (s := s) (fun j hj => by rw [hreq j (by simp [hj])])]
    refine S.answers l j m r' ans' rfl ?_
    unfold Answered at h ⊢
    rw [← h]
    exact (hreq j (by simp)).symm

theorem inv_step {a : App T} {db : Shelf T} {s : Sys T} {order : List Nat} (I : Inv a db s order) (e : Event) :
    Inv a db (track a (s, order) e).1 (track a (s, order) e).2 := by
  have hlt : ∀ j ∈ order, j < s.procs.length := by
    intro j hj
    obtain ⟨r, ans, h⟩ := (I.seq.mem j).1 hj
    exact (List.getElem?_eq_some_iff.1 h).1
  cases e with
  | arrive r =>
    have old : ∀ j, j < s.procs.length → (s.procs ++ [(r, progOf a r)])[j]? = s.procs[j]? := fun j hj => List.getElem?_append_left hj
    have new : (s.procs ++ [(r, progOf a r)])[s.procs.length]? = some (r, progOf a r) := by simp
    have cases' : ∀ j x, (s.procs ++ [(r, progOf a r)])[j]? = some x → s.procs[j]? = some x ∨ j = s.procs.length ∧ x = (r, progOf a r) := by
      intro j x h
      by_cases hj : j < s.procs.length
      · rw [old j hj] at h; exact Or.inl h
      · have : j < (s.procs ++ [(r, progOf a r)]).length := (List.getElem?_eq_some_iff.1 h).1
        simp only [List.length_append, List.length_cons, List.length_nil] at this
        have e : j = s.procs.length := by omega
        subst e
        rw [new] at h
        cases h
        exact Or.inr ⟨rfl, rfl⟩
    have pend : ∀ (i : Nat) r' p, (s.procs ++ [(r, progOf a r)])[i]? = some (r', p) → (∀ ans, p ≠ .done ans) → Pending a s.db r' p := by
      intro i r' p h hp
      rcases cases' i _ h with h | ⟨-, h⟩
      · exact I.pending i r' p h hp
      · cases h; exact Or.inl rfl
    simp only [track, Sys.step]
    cases hd : isDone (progOf a r) with
    | true =>
      rw [if_pos rfl]
      obtain ⟨ans, ha⟩ := isDone_iff.1 hd
      have hh := progOf_done ha s.db
      refine ⟨sequential_snoc I.seq s.procs.length r ans (fun h => Nat.lt_irrefl _ (hlt _ h)) (fun j hj => old j (hlt j hj)) ?_
        (by unfold Answered; simp only; rw [new, ha]) (by rw [hh]) (by rw [hh]), pend⟩
      intro j
      constructor
      · rintro ⟨r', ans', h⟩
        rcases cases' j _ h with h | ⟨h, -⟩
        · exact Or.inr ⟨r', ans', h⟩
        · exact Or.inl h
      · rintro (rfl | ⟨r', ans', h⟩)
        · exact ⟨r, ans, by unfold Answered; simp only; rw [new, ha]⟩
        · exact ⟨r', ans', by unfold Answered at h ⊢; simp only; rw [old j (List.getElem?_eq_some_iff.1 h).1, h]⟩
    | false =>
      rw [if_neg (by simp)]
      refine ⟨sequential_same I.seq (fun j hj => old j (hlt j hj)) ?_ rfl, pend⟩
      intro j
      constructor
      · rintro ⟨r', ans', h⟩
        rcases cases' j _ h with h | ⟨-, h⟩
        · exact ⟨r', ans', h⟩
        · rw [isDone_iff.2 ⟨ans', (Prod.mk.inj h).2.symm⟩] at hd; cases hd
      · rintro ⟨r', ans', h⟩
        exact ⟨r', ans', by unfold Answered at h ⊢; simp only; rw [old j (List.getElem?_eq_some_iff.1 h).1, h]⟩
  | run i =>
    cases hi : s.procs[i]? with
    | none => simp only [track, Sys.step, hi]; exact I
    | some x =>
      obtain ⟨r, p⟩ := x
      have hil : i < s.procs.length := (List.getElem?_eq_some_iff.1 hi).1
      have at_i : ∀ y, (s.procs.set i y)[i]? = some y := fun y => by simp [hil]
      have other : ∀ j y, j ≠ i → (s.procs.set i y)[j]? = s.procs[j]? := fun j y h => List.getElem?_set_ne (Ne.symm h)
      simp only [track, Sys.step, hi]
      cases hd : isDone p with
      | true =>
        obtain ⟨ans, rfl⟩ := isDone_iff.1 hd
        rw [if_pos rfl]
        have : (⟨((Prog.done ans).step s.db).1, s.procs.set i (r, ((Prog.done ans).step s.db).2)⟩ : Sys T) = s := by
          show (⟨s.db, s.procs.set i (r, .done ans)⟩ : Sys T) = s
          have : s.procs.set i (r, .done ans) = s.procs := by
            obtain ⟨_, hg⟩ := List.getElem?_eq_some_iff.1 hi
            rw [← hg, List.set_getElem_self]
          rw [this]
        rw [this]
        exact I
      | false =>
        rw [if_neg (by simp)]
        have hp : ∀ ans, p ≠ .done ans := by
          rintro ans rfl
          cases hd
        have hno : ∀ r' ans, ¬ Answered s i r' ans := by
          intro r' ans h
          unfold Answered at h
          rw [hi] at h
          cases h
          exact hp ans rfl
        have hio : i ∉ order := by
          intro h
          obtain ⟨r', ans, h⟩ := (I.seq.mem i).1 h
          exact hno r' ans h
        have hne : ∀ j ∈ order, j ≠ i := by rintro j hj rfl; exact hio hj
        rcases pending_step (I.pending i r p hi hp) hp with ⟨ans, hstep, hans⟩ | ⟨p', hstep, hp', hpend⟩
        · rw [hstep]
          rw [if_pos (show isDone (Prog.done ans) = true from rfl)]
          refine ⟨sequential_snoc I.seq i r ans hio (fun j hj => other j _ (hne j hj)) ?_ (at_i _) rfl hans, ?_⟩
          · intro j
            by_cases hj : j = i
            · subst hj
              exact ⟨fun _ => Or.inl rfl, fun _ => ⟨r, ans, at_i _⟩⟩
            · unfold Answered
              simp only [other j _ hj, hj, false_or]
          · intro j r' q hj hq
            by_cases hji : j = i
            · subst hji
              simp only at hj
              rw [at_i] at hj
              cases hj
              exact absurd rfl (hq ans)
            · simp only at hj
              rw [other j _ hji] at hj
              exact pending_mono (I.pending j r' q hj hq)
        · rw [hstep]
          have hf : isDone p' = false := by
            cases h : isDone p' with
            | false => rfl
            | true => obtain ⟨ans, h⟩ := isDone_iff.1 h; exact absurd h (hp' ans)
          simp only [hf]
          rw [if_neg (by simp)]
          refine ⟨sequential_same I.seq (fun j hj => other j _ (hne j hj)) ?_ rfl, ?_⟩
          · intro j
            by_cases hj : j = i
            · subst hj
              constructor
              · rintro ⟨r', ans, h⟩
                unfold Answered at h
                simp only at h
                rw [at_i] at h
                cases h
                exact absurd rfl (hp' ans)
              · rintro ⟨r', ans, h⟩
                exact absurd h (hno r' ans)
            · unfold Answered
              simp only [other j _ hj]
          · intro j r' q hj hq
            by_cases hji : j = i
            · subst hji
              simp only at hj
              rw [at_i] at hj
              cases hj
              exact hpend
            · simp only at hj
              rw [other j _ hji] at hj
              exact I.pending j r' q hj hq

theorem tracked {a : App T} {db : Shelf T} : ∀ (evs : List Event) (x : Sys T × List Nat), Inv a db x.1 x.2 →
    Inv a db (evs.foldl (track a) x).1 (evs.foldl (track a) x).2 ∧ (evs.foldl (track a) x).1 = evs.foldl (Sys.step a) x.1 ∧
    ∃ m, (evs.foldl (track a) x).2 = x.2 ++ m := by
  intro evs
  induction evs with
  | nil => intro x h; exact ⟨h, rfl, [], by simp⟩
  | cons e t ih =>
    intro x h
    obtain ⟨h1, h2, m, h3⟩ := ih (track a x e) (inv_step h e)
    refine ⟨h1, h2, ?_⟩
    have : ∃ n, (track a x e).2 = x.2 ++ n := by
      unfold track
      cases e with
      | arrive r => simp only; split <;> first | exact ⟨_, rfl⟩ | exact ⟨[], by simp⟩
      | run i =>
        simp only
        split
        · exact ⟨[], by simp⟩
        · split
          · exact ⟨[], by simp⟩
          · split <;> first | exact ⟨_, rfl⟩ | exact ⟨[], by simp⟩
    obtain ⟨n, hn⟩ := this
    refine ⟨n ++ m, ?_⟩
    show (t.foldl (track a) (track a x e)).2 = _
    rw [h3, hn, List.append_assoc]

/-- **C110.** However the operations of any number of requests interleave, and at whatever moment one looks (or the application is killed): the requests answered
so far might have been handled one after the other, in an order in which a request that was answered before another one arrived is in front of it.  The shelf has exactly
what these left. -/
theorem C110_one_after_the_other (a : App T) (db : Shelf T) (evs : List Event) : ∃ order, Sequential a db (Sys.runs a db evs) order ∧
    ∀ before after, evs = before ++ after → ∀ i r ans j, Answered (Sys.runs a db before) i r ans → (Sys.runs a db before).procs.length ≤ j → j ∈ order →
      Before order i j := by
  have I0 : Inv a db (⟨db, []⟩ : Sys T) [] := by
    refine ⟨⟨List.nodup_nil, ?_, rfl, ?_⟩, ?_⟩
    · intro i
      constructor
      · intro h; cases h
      · rintro ⟨r, ans, h⟩; cases h
    · intro l i m r ans h; cases l <;> cases h
    · intro i r p h; cases h
  have key := fun evs => tracked evs ((⟨db, []⟩ : Sys T), []) I0
  refine ⟨(evs.foldl (track a) (⟨db, []⟩, [])).2, ?_, ?_⟩
  · have := (key evs).1.seq
    rw [(key evs).2.1] at this
    exact this
  · rintro before after rfl i r ans j hi hj hjo
    have hb := (key before).1.seq
    have hs := (key before).2.1
    rw [hs] at hb
    have hib : i ∈ (before.foldl (track a) (⟨db, []⟩, [])).2 := (hb.mem i).2 ⟨r, ans, hi⟩
    have hjb : j ∉ (before.foldl (track a) (⟨db, []⟩, [])).2 := by
      intro h
      obtain ⟨r', ans', h⟩ := (hb.mem j).1 h
      have := (List.getElem?_eq_some_iff.1 h).1
      exact absurd hj (Nat.not_le.2 this)
    obtain ⟨-, -, m, hm⟩ := tracked after (before.foldl (track a) ((⟨db, []⟩ : Sys T), [])) (key before).1
    rw [List.foldl_append] at hjo ⊢
    rw [hm] at hjo ⊢
    have hjm : j ∈ m := (List.mem_append.1 hjo).resolve_left hjb
    obtain ⟨l1, l2, e1⟩ := List.append_of_mem hib
    obtain ⟨m1, m2, e2⟩ := List.append_of_mem hjm
    exact ⟨l1, l2 ++ m1, m2, by rw [e1, e2]; simp⟩

theorem before_split {l : List Nat} {x y : Nat} (hn : l.Nodup) (h : Before l x y) {p q : List Nat} (e : l = p ++ y :: q) : x ∈ p := by
  obtain ⟨a, b, c, h⟩ := h
  have : a ++ x :: b = p := by
    rw [e] at h hn
    rw [List.append_eq_append_iff] at h
    rcases h with ⟨t, h1, h2⟩ | ⟨t, h1, h2⟩
    · cases t with
      | nil => simpa using h1
      | cons z t =>
        simp only [List.cons_append, List.cons.injEq] at h2
        exfalso
        rw [h2.2] at hn
        have := (List.nodup_append.1 hn).2.1
        simp at this
    · cases t with
      | nil => simpa using h1.symm
      | cons z t =>
        simp only [List.cons_append, List.cons.injEq] at h2
        exfalso
        rw [h1, h2.1.symm] at hn
        simp [List.nodup_append] at hn
  rw [← this]
  simp

/-- **C110, uploads are seen.** Who asks for a configuration after an upload of that name was answered is shown it, or one that was uploaded later: never one whose upload
was answered before that one arrived, and never "not found". -/
theorem C110_upload_seen (a : App T) (before after : List Event) (i : Nat) (r : Request) (ans : Answer T) (n : String) (c : Conf T)
    (hi : Answered (Sys.runs a [] before) i r ans) (hu : Uploads a r n c) (j : Nat) (args : Args) (ans' : Answer T)
    (hlate : (Sys.runs a [] before).procs.length ≤ j) (hj : Answered (Sys.runs a [] (before ++ after)) j (.showGet args) ans') (hn : args.config = some n) :
    ∃ k rk ansk c', Answered (Sys.runs a [] (before ++ after)) k rk ansk ∧ Uploads a rk n c' ∧ ans' = (handle a [(n, c')] (.showGet args)).2 ∧
      ∀ first rest, before ++ after = first ++ rest → Answered (Sys.runs a [] first) k rk ansk → i < (Sys.runs a [] first).procs.length := by
  obtain ⟨order, S, hreal⟩ := C110_one_after_the_other a [] (before ++ after)
  have hjo : j ∈ order := (S.mem j).2 ⟨_, _, hj⟩
  have hij := hreal before after rfl i r ans j hi hlate hjo
  obtain ⟨l, m, e⟩ := List.append_of_mem hjo
  have hil : i ∈ l := before_split S.nodup hij e
  have hans := S.answers l j m _ _ e hj
  have hio : i ∈ order := by rw [e]; simp [hil]
  obtain ⟨r', ans2, hi'⟩ := (S.mem i).1 hio
  have hlen : i < (Sys.runs a [] before).procs.length := (List.getElem?_eq_some_iff.1 hi).1
  -- the request of a number does not change
  have keep : ∀ (evs : List Event) (s : Sys T) (q : Nat) (x : Request × Prog T), s.procs[q]? = some x → ∃ p, (evs.foldl (Sys.step a) s).procs[q]? = some (x.1, p) := by
    intro evs
    induction evs with
    | nil => intro s q x h; exact ⟨x.2, h⟩
    | cons ev t ih =>
      intro s q x h
      have : ∃ p, (s.step a ev).procs[q]? = some (x.1, p) := by
        cases ev with
        | arrive r0 => exact ⟨x.2, by simp only [Sys.step]; rw [List.getElem?_append_left (List.getElem?_eq_some_iff.1 h).1, h]⟩
        | run k =>
          simp only [Sys.step]
          split
          · exact ⟨x.2, h⟩
          · rename_i r0 p0 h0
            by_cases hk : q = k
            · subst hk
              rw [h] at h0
              cases h0
              exact ⟨_, by simp [(List.getElem?_eq_some_iff.1 h).1]; rfl⟩
            · exact ⟨x.2, by simp only; rw [List.getElem?_set_ne (Ne.symm hk)]; exact h⟩
      obtain ⟨p, hp⟩ := this
      exact ih _ q (x.1, p) hp
  have hr' : r' = r := by
    obtain ⟨p, hp⟩ := keep after _ i _ hi
    unfold Answered at hi'
    rw [show Sys.runs a [] (before ++ after) = after.foldl (Sys.step a) (Sys.runs a [] before) from List.foldl_append ..] at hi'
    rw [hp] at hi'
    cases hi'
    rfl
  subst hr'
  have hmem : r' ∈ (Sys.runs a [] (before ++ after)).requests l := by
    refine List.mem_filterMap.2 ⟨i, hil, ?_⟩
    unfold Answered at hi'
    rw [hi']
    rfl
  obtain ⟨c', hl⟩ := latest_exists (a := a) (n := n) _ ⟨r', hmem, c, hu⟩
  have hl' := hl
  obtain ⟨b, rk, af, he, hk, hlast⟩ := hl
  unfold Sys.requests at he
  obtain ⟨l1, l2, e1, e2, e3⟩ := List.filterMap_eq_append_iff.1 he
  obtain ⟨l3, k, l4, e4, e5, e6, e7⟩ := List.filterMap_eq_cons_iff.1 e3
  have hko : k ∈ order := by rw [e, e1, e4]; simp
  obtain ⟨rk', ansk, hk'⟩ := (S.mem k).1 hko
  have : rk' = rk := by
    unfold Answered at hk'
    rw [hk'] at e6
    cases e6
    rfl
  subst this
  refine ⟨k, rk', ansk, c', hk', hk, ?_, ?_⟩
  · rw [hans]
    show showPage a _ args = showPage a [(n, c')] args
    unfold showPage
    rw [hn]
    simp only
    rw [(C97_last_upload a _ n c').2 hl']
    have : dGet [(n, c')] n = some c' := by simp [dGet]
    rw [this]
  · intro first rest ee hf
    refine Nat.lt_of_not_le fun hle => ?_
    have hki := hreal first rest ee k rk' ansk i hf hle hio
    -- `i` stands behind `k` in `l`
    have hin : i ∈ l4 := by
      have hl4 : l = l1 ++ (l3 ++ k :: l4) := by rw [e1, e4]
      obtain ⟨u, w, hw⟩ := List.append_of_mem hil
      have hku : k ∈ u := before_split S.nodup hki (p := u) (q := w ++ j :: m) (by rw [e, hw]; simp)
      have nd : l.Nodup := by
        have := S.nodup
        rw [e] at this
        exact (List.nodup_append.1 this).1
      obtain ⟨u1, u2, hu'⟩ := List.append_of_mem hku
      have e8 : l = u1 ++ k :: (u2 ++ i :: w) := by rw [hw, hu']; simp
      have e9 : l = (l1 ++ l3) ++ k :: l4 := by rw [hl4]; simp
      have : u2 ++ i :: w = l4 := by
        have nd' := nd
        rw [e8] at nd'
        rw [e8] at e9
        rw [List.append_eq_append_iff] at e9
        rcases e9 with ⟨t, h1, h2⟩ | ⟨t, h1, h2⟩
        · cases t with
          | nil => simpa using h2
          | cons z t =>
            simp only [List.cons_append, List.cons.injEq] at h2
            exfalso
            rw [h2.2] at nd'
            simp [List.nodup_append] at nd'
        · cases t with
          | nil => simpa using h2.symm
          | cons z t =>
            simp only [List.cons_append, List.cons.injEq] at h2
            exfalso
            rw [h1, ← h2.1] at nd'
            simp [List.nodup_append] at nd'
      rw [← this]
      simp
    have : r' ∈ af := by
      rw [← e7]
      refine List.mem_filterMap.2 ⟨i, hin, ?_⟩
      unfold Answered at hi'
      rw [hi']
      rfl
    exact hlast _ this _ hu

/-! ## samples -/

/-- An upload that is accepted, as a program. -/
theorem progOf_upload {a : App T} {req : Request} {n : String} {c : Conf T} (h : Uploads a req n c) : progOf a req = .put n c (.done (.toShow n)) := by
  obtain ⟨bs, t, rfl, h1, h2, rfl⟩ := h
  simp only [progOf]
  rw [(FileText.C95_config_file a.guard _ bs).1 t h1, h2]

/-- A request that arrives first, but looks at the shelf after the upload that came second, is shown the upload; a third request, which has only begun, is not answered.  The
order of C110 is not that of the arrivals. -/
theorem C110_sample (env : Pf.Env T) : ∃ n c, Uploads (sampleApp env) sampleUpload n c ∧
    let evs : List Event := [.arrive (.showGet { config := some n }), .arrive sampleUpload, .run 1, .run 0, .arrive (.showGet { config := some n }), .run 2, .run 0]
    Answered (Sys.runs (sampleApp env) [] evs) 0 (.showGet { config := some n }) (.page ⟨c, false, false, "", false, .nothing⟩) ∧
    Answered (Sys.runs (sampleApp env) [] evs) 1 sampleUpload (.toShow n) ∧
    (∀ r ans, ¬ Answered (Sys.runs (sampleApp env) [] evs) 2 r ans) ∧
    ∀ order, Sequential (sampleApp env) [] (Sys.runs (sampleApp env) [] evs) order → order = [1, 0] := by
  obtain ⟨items, h, -⟩ := sample_uploads env
  refine ⟨_, _, h, ?_⟩
  generalize hn : name (T := T) (.fwsm items) = n at h
  have hp := progOf_upload h
  intro evs
  have hrun : Sys.runs (sampleApp env) [] evs = ⟨[(n, .fwsm items)], [(.showGet { config := some n }, .done (.page ⟨.fwsm items, false, false, "", false, .nothing⟩)),
      (sampleUpload, .done (.toShow n)), (.showGet { config := some n }, .get n (showRest (sampleApp env) { config := some n }))]⟩ := by
    have hs : ∀ x : Conf T, showRest (sampleApp env) { config := some n } (some x) = .done (.page ⟨x, false, false, "", false, .nothing⟩) := fun _ => rfl
    have hm : progOf (sampleApp env) (.showGet { config := some n }) =
        .mem n fun b => if b then .get n (showRest (sampleApp env) { config := some n }) else .done .notFound := rfl
    simp [evs, Sys.runs, Sys.step, hm, hp, Prog.step, dGet, dSet, hs]
  rw [hrun]
  have a0 : Answered (⟨[(n, .fwsm items)], [(.showGet { config := some n }, .done (.page ⟨.fwsm items, false, false, "", false, .nothing⟩)),
      (sampleUpload, .done (.toShow n)), (.showGet { config := some n }, .get n (showRest (sampleApp env) { config := some n }))]⟩ : Sys T) 0
      (.showGet { config := some n }) (.page ⟨.fwsm items, false, false, "", false, .nothing⟩) := rfl
  have a1 : Answered (⟨[(n, .fwsm items)], [(.showGet { config := some n }, .done (.page ⟨.fwsm items, false, false, "", false, .nothing⟩)),
      (sampleUpload, .done (.toShow n)), (.showGet { config := some n }, .get n (showRest (sampleApp env) { config := some n }))]⟩ : Sys T) 1
      sampleUpload (.toShow n) := rfl
  refine ⟨a0, a1, ?_, ?_⟩
  · intro r ans h; cases h
  · intro order S
    have m0 : 0 ∈ order := (S.mem 0).2 ⟨_, _, a0⟩
    have m1 : 1 ∈ order := (S.mem 1).2 ⟨_, _, a1⟩
    have only : ∀ i ∈ order, i = 0 ∨ i = 1 := by
      intro i hi
      obtain ⟨r, ans, h⟩ := (S.mem i).1 hi
      match i, h with
      | 0, _ => exact Or.inl rfl
      | 1, _ => exact Or.inr rfl
      | 2, h => cases h
      | i + 3, h => simp [Answered] at h
    have nd := S.nodup
    have ans := S.answers
    match order, m0, m1, only, nd, ans with
    | [x], m0, m1, _, _, _ => simp at m0 m1; omega
    | [x, y], m0, m1, only, nd, ans =>
      rcases only x (by simp) with rfl | rfl
      · exfalso
        have := ans [] 0 [y] _ _ rfl a0
        cases this
      · rcases only y (by simp) with rfl | rfl
        · rfl
        · simp at nd
    | x :: y :: z :: t, _, _, only, nd, _ =>
      exfalso
      have h1 := only x (by simp)
      have h2 := only y (by simp)
      have h3 := only z (by simp)
      simp only [List.nodup_cons, List.mem_cons, not_or] at nd
      omega

end Acltk.Web
