import Verif.Spec.IosSpec
import Verif.Lemmas.FwsmReadFile
import Verif.Props.NetText
/-!
# Reading an IOS configuration: options, hosts and rules
-/
namespace Acltk.IosText
open Acltk Acltk.Lookup Acltk.Peg Acltk.AclText
open Acltk.FwsmText (St Bare LineRest Aft Sta ip4_read known_word kwWord tok_self refer_end v6_valid v6Slash_word maskText_ne)

variable {rest : Text} {g : Guard}

/-! ## words of a line -/

theorem aft_toE : ∀ {wl : List String} {t : Text}, Aft false rest wl t → AftE (Aft false rest []) wl t
  | [], _, h => ⟨h, h.eow, Or.inl h.noWs⟩
  | _ :: _, _, ⟨b, t', h1, h2, h3, h4⟩ => ⟨b, t', h1, h2, h3, aft_toE h4⟩

theorem aft_ofE : ∀ {wl : List String} {t : Text}, AftE (Aft false rest []) wl t → Aft false rest wl t
  | [], _, h => h.1
  | _ :: _, _, ⟨b, t', h1, h2, h3, h4⟩ => ⟨b, t', h1, h2, h3, aft_ofE h4⟩

theorem sta_toE {wl : List String} {t : Text} (h : Sta false rest wl t) : StaE (Aft false rest []) wl t := by
  cases wl with
  | nil => exact h
  | cons w wl => obtain ⟨t', h1, h2⟩ := h; exact ⟨t', h1, aft_toE h2⟩

/-- Blanks or the end of the line. -/
theorem aft_ws {wl : List String} (hw : ∀ w ∈ wl, Word w) {t : Text} (h : Aft false rest wl t) :
    (wl = [] ∧ ws t = .fail) ∨ ∃ t', ws t = .ok () t' ∧ Sta false rest wl t' := by
  cases wl with
  | nil => exact Or.inl ⟨rfl, h.noWs⟩
  | cons w wl => exact Or.inr (h.blanks (hw w (by simp)))

theorem sta_length {w : String} {wl : List String} {t : Text} (hw : Word w) (h : Sta false rest (w :: wl) t) :
    ∃ t', t = w.toList ++ t' ∧ Aft false rest wl t' ∧ t'.length < t.length := by
  obtain ⟨t', rfl, h'⟩ := h
  refine ⟨t', rfl, h', ?_⟩
  have : 0 < w.toList.length := List.length_pos_iff.2 hw.1
  simp only [List.length_append]; omega

theorem ws_shorter {t t' : Text} (h : ws t = .ok () t') : t'.length < t.length := by
  obtain ⟨b, v, rfl, hb, hv⟩ := FwsmText.blanks_split t
  by_cases hne : b = []
  · subst hne
    rw [List.nil_append, ws_fail hv] at h
    cases h
  · rw [ws_ok hne hb hv] at h
    cases h
    have : 0 < b.length := List.length_pos_iff.2 hne
    simp only [List.length_append]; omega

/-! ## options -/

/-- The forms are those of the table. -/
structure Fits (f : OptForms) (l : List (String × Arg)) : Prop where
  flags : ∀ k ∈ f.flags, l.find? (fun ka => mayMatch k ka.1) = some (k, .none)
  values : ∀ k ∈ f.values, l.find? (fun ka => mayMatch k ka.1) = some (k, .ident)
  logs : ∀ k ∈ f.logs, l.find? (fun ka => mayMatch k ka.1) = some (k, .optIdent)
  blank : ∀ ka ∈ l, ∀ c ∈ ka.1.toList, isBlank c = false
  words : ∀ k ∈ f.flags ++ f.values ++ f.logs, Word k

theorem words_of_all {l : List String} (h : (l.all (fun k => !k.toList.isEmpty && k.toList.all (fun c => !isBlank c))) = true) :
    ∀ k ∈ l, Word k := fun _ hk => mem_word h hk

theorem ext_fits : Fits extForms extOptions :=
  ⟨by decide +kernel, by decide +kernel, by decide +kernel, by decide +kernel, words_of_all (by decide +kernel)⟩
theorem std_fits : Fits stdForms stdOptions :=
  ⟨by decide +kernel, by decide +kernel, by decide +kernel, by decide +kernel, words_of_all (by decide +kernel)⟩
theorem ip6_fits : Fits ip6Forms ip6Options :=
  ⟨by decide +kernel, by decide +kernel, by decide +kernel, by decide +kernel, words_of_all (by decide +kernel)⟩
theorem ip6Icmp_fits : Fits ip6IcmpForms ip6IcmpOptions :=
  ⟨by decide +kernel, by decide +kernel, by decide +kernel, by decide +kernel, words_of_all (by decide +kernel)⟩

/-- The words of the options. -/
theorem OptW.words {f : OptForms} (hw : ∀ k ∈ f.flags ++ f.values ++ f.logs, Word k) {ow : List String}
    {os : List (String × Option String)} (h : OptW f ow os) :
    (∀ w ∈ ow, Word w) ∧ ∀ w ∈ ow.head?, w ∈ f.flags ++ f.values ++ f.logs := by
  have two : ∀ {a b : String} {l : List String}, Word a → Word b → (∀ w ∈ l, Word w) → ∀ w ∈ a :: b :: l, Word w := by
    intro a b l ha hb hl w hw
    simp only [List.mem_cons] at hw
    rcases hw with rfl | rfl | hw
    · exact ha
    · exact hb
    · exact hl w hw
  induction h with
  | nil => exact ⟨by simp, by simp⟩
  | flag k ws os hk _ ih =>
    have hk : k ∈ f.flags ++ f.values ++ f.logs := by simp [hk]
    refine ⟨?_, by simpa using hk⟩
    intro w hw'
    rcases List.mem_cons.1 hw' with rfl | hw'
    · exact hw _ hk
    · exact ih.1 w hw'
  | value k v ws os hk hv _ ih =>
    have hk : k ∈ f.flags ++ f.values ++ f.logs := by simp [hk]
    exact ⟨two (hw _ hk) hv.word ih.1, by simpa using hk⟩
  | log k hk =>
    have hk : k ∈ f.flags ++ f.values ++ f.logs := by simp [hk]
    refine ⟨?_, by simpa using hk⟩
    intro w hw'
    rw [List.mem_singleton.1 hw']; exact hw _ hk
  | logWord k v ws os hk hv _ ih =>
    have hk : k ∈ f.flags ++ f.values ++ f.logs := by simp [hk]
    exact ⟨two (hw _ hk) hv.word ih.1, by simpa using hk⟩

/-- The option whose keyword is the word. -/
theorem optionOf_read (hg : GuardOk g) {w : String} {t : Text} (ht : EndOfWord t) {a : Arg} {l : List (String × Arg)}
    (hl : ∀ ka ∈ l, ∀ c ∈ ka.1.toList, isBlank c = false) (h : l.find? (fun ka => mayMatch w ka.1) = some (w, a))
    {v : Option String} {r : Text} (hr : optArg a t = .ok v r) : optionOf g l (w.toList ++ t) = .ok (w, v) r := by
  unfold optionOf
  induction l with
  | nil => cases h
  | cons x l ih =>
    rw [List.map_cons]
    rw [List.find?_cons] at h
    cases hx : mayMatch w x.1 with
    | true =>
      rw [hx] at h
      obtain rfl : x = (w, a) := by simpa using h
      apply alts_ok
      rw [bind_ok ((tok_word (hl _ (by simp)) ht hg.passes).1 rfl), bind_ok hr]
      rfl
    | false =>
      rw [hx] at h
      rw [alts_fail (bind_fail (tok_no hg (hl x (by simp)) ht hx))]
      exact ih (fun y hy => hl y (by simp [hy])) h

/-- No option begins here. -/
theorem optionOf_no (hg : GuardOk g) {w : String} {t : Text} (ht : EndOfWord t) {l : List (String × Arg)}
    (hl : ∀ ka ∈ l, ∀ c ∈ ka.1.toList, isBlank c = false) (h : ∀ ka ∈ l, mayMatch w ka.1 = false) :
    optionOf g l (w.toList ++ t) = .fail := by
  unfold optionOf
  induction l with
  | nil => rfl
  | cons x l ih =>
    rw [List.map_cons, alts_fail (bind_fail (tok_no hg (hl x (by simp)) ht (h x (by simp))))]
    exact ih (fun y hy => hl y (by simp [hy])) (fun y hy => h y (by simp [hy]))

/-- The dictionary of the options. -/
theorem optionsAre_fold (os : List (String × Option String)) :
    OptionsAre (os.foldl (fun d o => dSet d o.1 o.2) []) os := by
  have key : ∀ (os : List (String × Option String)) (d : Dict String (Option String)) (k : String),
      dGet (os.foldl (fun d o => dSet d o.1 o.2) d) k =
        (((os.filter (fun o => o.1 == k)).getLast?).map (·.2)).or (dGet d k) := by
    intro os
    induction os with
    | nil => intro d k; simp
    | cons o os ih =>
      intro d k
      rw [List.foldl_cons, ih]
      by_cases hk : k = o.1
      · subst hk
        rw [List.filter_cons_of_pos (by simp)]
        simp only [dGet_dSet_same]
        cases hl : os.filter (fun x => x.1 == o.1) with
        | nil => simp
        | cons a l => simp [Option.or, List.getLast?_cons]
      · rw [List.filter_cons_of_neg (by simp; exact fun h => hk h.symm)]
        simp only [dGet_dSet_other _ _ hk]
  intro k
  rw [key]; simp [dGet]

theorem options_read (hg : GuardOk g) {f : OptForms} {l : List (String × Arg)} (hf : Fits f l) {ow : List String}
    {os : List (String × Option String)} (h : OptW f ow os) : ∀ {t : Text}, Aft false rest ow t →
      ∃ t', many (ws >>= fun _ => optionOf g l) t = .ok os t' ∧ nl t' = .ok () rest := by
  induction h with
  | nil =>
    intro t ht
    exact ⟨t, many_fail (bind_fail ht.noWs), ht.nl⟩
  | flag k wl os hk _ ih =>
    intro t ht
    have hw := hf.words k (by simp [hk])
    obtain ⟨t1, h1, h2⟩ := ht.blanks hw
    obtain ⟨t2, rfl, h3, h4⟩ := sta_length hw h2
    obtain ⟨t', h5, h6⟩ := ih h3
    have := ws_shorter h1
    refine ⟨t', many_ok (a := (k, none)) (by
      rw [bind_ok h1]; exact optionOf_read hg h3.eow hf.blank (hf.flags k hk) rfl) (by omega) h5, h6⟩
  | value k v wl os hk hv _ ih =>
    intro t ht
    have hw := hf.words k (by simp [hk])
    obtain ⟨t1, h1, h2⟩ := ht.blanks hw
    obtain ⟨t2, rfl, h3, h4⟩ := sta_length hw h2
    obtain ⟨t3, g1, g2⟩ := h3.blanks hv.word
    obtain ⟨t4, rfl, g3, g4⟩ := sta_length hv.word g2
    obtain ⟨t', h5, h6⟩ := ih g3
    have := ws_shorter h1
    have := ws_shorter g1
    refine ⟨t', many_ok (a := (k, some v)) (by
      rw [bind_ok h1]
      refine optionOf_read hg h3.eow hf.blank (hf.values k hk) (v := some v) (r := t4) ?_
      show (ws >>= fun _ => identifier >>= fun v => pure (some (String.ofList v))) t2 = _
      rw [bind_ok g1, bind_ok (identifier_read hv g3.eow), String.ofList_toList]
      rfl) (by omega) h5, h6⟩
  | log k hk =>
    intro t ht
    have hw := hf.words k (by simp [hk])
    obtain ⟨t1, h1, h2⟩ := ht.blanks hw
    obtain ⟨t2, rfl, h3, h4⟩ := sta_length hw h2
    have := ws_shorter h1
    refine ⟨t2, many_ok (a := (k, none)) (by
      rw [bind_ok h1]
      refine optionOf_read hg h3.eow hf.blank (hf.logs k hk) (v := none) (r := t2) ?_
      show (opt (ws >>= fun _ => identifier) >>= fun v => pure (v.map String.ofList)) t2 = _
      rw [bind_ok (opt_fail (bind_fail h3.noWs))]
      rfl) (by omega) (many_fail (bind_fail h3.noWs)), h3.nl⟩
  | logWord k v wl os hk hv _ ih =>
    intro t ht
    have hw := hf.words k (by simp [hk])
    obtain ⟨t1, h1, h2⟩ := ht.blanks hw
    obtain ⟨t2, rfl, h3, h4⟩ := sta_length hw h2
    obtain ⟨t3, g1, g2⟩ := h3.blanks hv.word
    obtain ⟨t4, rfl, g3, g4⟩ := sta_length hv.word g2
    obtain ⟨t', h5, h6⟩ := ih g3
    have := ws_shorter h1
    have := ws_shorter g1
    have hi : (ws >>= fun _ => identifier) t2 = .ok v.toList t4 := by
      rw [bind_ok g1]; exact identifier_read hv g3.eow
    refine ⟨t', many_ok (a := (k, some v)) (by
      rw [bind_ok h1]
      refine optionOf_read hg h3.eow hf.blank (hf.logs k hk) (v := some v) (r := t4) ?_
      show (opt (ws >>= fun _ => identifier) >>= fun v => pure (v.map String.ofList)) t2 = _
      rw [bind_ok (opt_ok hi)]
      show Res.ok (some (String.ofList v.toList)) t4 = _
      rw [String.ofList_toList]) (by omega) h5, h6⟩

/-- The options and the end of the line. -/
theorem optionsOf_read (hg : GuardOk g) {f : OptForms} {l : List (String × Arg)} (hf : Fits f l) {ow : List String}
    {os : List (String × Option String)} (h : OptW f ow os) {t : Text} (ht : Aft false rest ow t) :
    ∃ t' d, optionsOf g l t = .ok d t' ∧ nl t' = .ok () rest ∧ OptionsAre d os := by
  obtain ⟨t', h1, h2⟩ := options_read hg hf h ht
  refine ⟨t', _, ?_, h2, optionsAre_fold os⟩
  unfold optionsOf
  rw [bind_ok h1]
  rfl

end Acltk.IosText
