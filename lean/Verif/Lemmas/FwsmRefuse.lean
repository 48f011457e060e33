import Verif.Lemmas.FwsmSync
/-!
# Texts the FWSM parser refuses
-/
namespace Acltk.FwsmText
open Acltk Acltk.Lookup Acltk.Peg Acltk.AclText

variable {α β : Type} {g : Guard} {s : St}

/-- The words the commands begin with. -/
def firstWords : List String :=
  ["ASA Version ", "FWSM Version ", "hostname", "domain-name", "interface", "name", "time-range", "object", "object-group",
   "access-list", "access-group", "nat"] ++ ignoredList.map (·.1) ++ ["\n", "\r\n"]

/-- Whatever the rule accepts begins with one of these words. -/
def First (W : List String) (p : P α) : Prop := ∀ t a r, p t = .ok a r → ∃ w ∈ W, w.toList <+: t

theorem First.mono {W V : List String} {p : P α} (h : First W p) (hi : ∀ w ∈ W, w ∈ V) : First V p := by
  intro t a r e
  obtain ⟨w, hw, hp⟩ := h t a r e
  exact ⟨w, hi w hw, hp⟩

theorem First.bind {W : List String} {p : P α} {f : α → P β} (h : First W p) : First W (p >>= f) := by
  intro t a r e
  obtain ⟨b, u, h1, -⟩ := bind_inv e
  exact h _ _ _ h1

theorem First.tok (w : String) : First [w] (tok g w) := by
  intro t a r e
  obtain ⟨c, rfl, -, rfl⟩ := reads_tok _ _ _ _ _ e
  exact ⟨w, by simp, ⟨r, rfl⟩⟩

theorem First.alt {W : List String} {p q : P α} (hp : First W p) (hq : First W q) : First W (alt p q) := by
  intro t a r e
  rcases alt_inv e with e | e
  · exact hp _ _ _ e
  · exact hq _ _ _ e

theorem First.alts {W : List String} {l : List (P α)} (h : ∀ p ∈ l, First W p) : First W (alts l) := by
  induction l with
  | nil => intro t a r e; cases e
  | cons p l ih => exact First.alt (h p (by simp)) (ih fun q hq => h q (by simp [hq]))

theorem First.nl : First ["\n", "\r\n"] nl := by
  intro t a r e
  obtain ⟨c, rfl, rfl | rfl⟩ := reads_nl _ _ _ e
  · exact ⟨"\n", by simp, ⟨r, rfl⟩⟩
  · exact ⟨"\r\n", by simp, ⟨r, rfl⟩⟩

theorem run_chr {c : Char} {e : Re} {t r : Text} (h : r ∈ (Re.seq (.chr c) e).run t) : ∃ u, t = c :: u ∧ r ∈ e.run u := by
  cases t with
  | nil => simp [Re.run, Re.chr] at h
  | cons y t =>
    simp only [Re.run, Re.chr] at h
    split at h
    · rename_i hy
      simp at h hy
      subst hy
      exact ⟨t, rfl, h⟩
    · simp at h

theorem pat_mem {e : Re} {t r : Text} {v : List Char} (h : pat e t = .ok v r) : r ∈ e.run t := by
  unfold pat at h
  generalize hr : e.run t = l at h
  cases l with
  | nil => cases h
  | cons x l => cases h; exact List.mem_cons_self

theorem version_first : First ["ASA Version ", "FWSM Version "] version := by
  unfold version
  refine First.bind (First.alt ?_ ?_)
  · intro t a r h
    have h0 := pat_mem h
    clear h
    obtain ⟨u1, rfl, h1⟩ := run_chr h0
    obtain ⟨u2, rfl, h2⟩ := run_chr h1
    obtain ⟨u3, rfl, h3⟩ := run_chr h2
    obtain ⟨u4, rfl, h4⟩ := run_chr h3
    obtain ⟨u5, rfl, h5⟩ := run_chr h4
    obtain ⟨u6, rfl, h6⟩ := run_chr h5
    obtain ⟨u7, rfl, h7⟩ := run_chr h6
    obtain ⟨u8, rfl, h8⟩ := run_chr h7
    obtain ⟨u9, rfl, h9⟩ := run_chr h8
    obtain ⟨u10, rfl, h10⟩ := run_chr h9
    obtain ⟨u11, rfl, h11⟩ := run_chr h10
    obtain ⟨u12, rfl, h12⟩ := run_chr h11
    exact ⟨"ASA Version ", by decide +kernel, ⟨u12, rfl⟩⟩
  · intro t a r h
    have h0 := pat_mem h
    clear h
    obtain ⟨u1, rfl, h1⟩ := run_chr h0
    obtain ⟨u2, rfl, h2⟩ := run_chr h1
    obtain ⟨u3, rfl, h3⟩ := run_chr h2
    obtain ⟨u4, rfl, h4⟩ := run_chr h3
    obtain ⟨u5, rfl, h5⟩ := run_chr h4
    obtain ⟨u6, rfl, h6⟩ := run_chr h5
    obtain ⟨u7, rfl, h7⟩ := run_chr h6
    obtain ⟨u8, rfl, h8⟩ := run_chr h7
    obtain ⟨u9, rfl, h9⟩ := run_chr h8
    obtain ⟨u10, rfl, h10⟩ := run_chr h9
    obtain ⟨u11, rfl, h11⟩ := run_chr h10
    obtain ⟨u12, rfl, h12⟩ := run_chr h11
    obtain ⟨u13, rfl, h13⟩ := run_chr h12
    exact ⟨"FWSM Version ", by decide +kernel, ⟨u13, rfl⟩⟩

theorem First.key {w : String} {f : String → P β} : First [w] (Peg.tok g w >>= f) := First.bind (First.tok w)

theorem ignored_key {g : Guard} {t r : Text} {i : Item} (h : ignored g t = .ok i r) :
    ∃ kt ∈ ignoredList, (do let _ ← tok g kt.1; tail kt.2; pure .nothing : P Item) t = .ok i r := by
  unfold ignored at h
  generalize ignoredList = l at h
  induction l with
  | nil => cases h
  | cons kt l ih =>
    rcases alt_inv h with h | h
    · exact ⟨kt, by simp, h⟩
    · obtain ⟨kt', hm, h'⟩ := ih h
      exact ⟨kt', by simp [hm], h'⟩

theorem ignored_first : First firstWords (ignored g) := by
  intro t a r h
  obtain ⟨kt, hk, h⟩ := ignored_key h
  obtain ⟨b, u, h1, -⟩ := bind_inv h
  obtain ⟨w, hw, hp⟩ := First.tok _ _ _ _ h1
  simp only [List.mem_singleton] at hw
  subst hw
  exact ⟨kt.1, by simp only [firstWords, List.mem_append, List.mem_map]; exact Or.inl (Or.inr ⟨kt, hk, rfl⟩), hp⟩

theorem remarks_first {e : Env} : First ["access-list"] (many1 (remarkLine e)) := by
  intro t a r h
  obtain ⟨c, rfl, hr, hne⟩ := remarks_reads _ _ _ h
  cases hr with
  | nil => exact absurd rfl hne
  | cons i h r d l hi hs hn _ =>
    obtain ⟨z, rfl⟩ := spaced_head hs
    exact ⟨"access-list", by simp, ⟨_, by simp only [List.append_assoc]; rfl⟩⟩

theorem remarkLines_first {c : List Char} {rs : List (List Char)} (h : RemarkLines c rs) (hne : c ≠ []) (u : List Char) :
    "access-list".toList <+: c ++ u := by
  cases h with
  | nil => exact absurd rfl hne
  | cons i h r d l hi hs hn _ =>
    obtain ⟨z, rfl⟩ := spaced_head hs
    exact ⟨_, by simp only [List.append_assoc]; rfl⟩

theorem accessList_first {e : Env} (he : e.Clean) : First ["access-list"] (accessList e) := by
  intro t a r h
  have key : ∀ {c1 : List Char} {rs : List (List Char)} {l : List String} {hd w : List Char}, RemarkLines c1 rs →
      Spaced ("access-list" :: l) hd → "access-list".toList <+: c1 ++ (hd ++ w) := by
    intro c1 rs l hd w hr hs
    by_cases e : c1 = []
    · subst e
      obtain ⟨z, rfl⟩ := spaced_head hs
      exact ⟨z ++ w, by simp⟩
    · exact remarkLines_first hr e _
  refine ⟨"access-list", by simp, ?_⟩
  cases a with
  | some x =>
    obtain ⟨remarks, line, rfl, hr, ⟨hl, hd, b, w, hs, -, rfl⟩, -⟩ := C69_one_rule_one_line _ he _ _ _ h
    have := key (w := b :: (w ++ r)) hr hs
    simpa using this
  | none =>
    obtain ⟨c1, rs, c, i, hd, w, rfl, hr, hl, hi, hsp, rfl⟩ := C69_dropped_is_ethertype _ _ _ h
    have := key (w := w ++ r) hr hsp
    simpa using this

/-- The words in front of the commands that are not read over. -/
def knownWords : List String :=
  ["ASA Version ", "FWSM Version ", "hostname", "domain-name", "interface", "name", "time-range", "object", "object-group",
   "access-list", "access-group", "nat", "\n", "\r\n"]

theorem command_known (hs : s.Clean) {t r : Text} {x : Item × St} (h : command s t = .ok x r) :
    (∃ w ∈ knownWords, w.toList <+: t) ∨ ignored s.env.guard t = .ok x.1 r := by
  have aux : ∀ {p : P (Item × St)} {W : List String}, First W p → (∀ w ∈ W, w ∈ knownWords) →
      p t = .ok x r → (∃ w ∈ knownWords, w.toList <+: t) ∨ ignored s.env.guard t = .ok x.1 r :=
    fun h1 h2 h3 => Or.inl ((h1.mono h2) _ _ _ h3)
  unfold command at h
  rcases alt_inv h with h | h
  · exact aux (First.bind version_first) (by decide +kernel) h
  rcases alt_inv h with h | h
  · exact aux (First.bind (W := ["hostname"]) First.key) (by decide +kernel) h
  rcases alt_inv h with h | h
  · exact aux (First.bind (W := ["domain-name"]) First.key) (by decide +kernel) h
  rcases alt_inv h with h | h
  · exact aux (W := ["interface"]) First.key (by decide +kernel) h
  rcases alt_inv h with h | h
  · exact aux (W := ["name"]) First.key (by decide +kernel) h
  rcases alt_inv h with h | h
  · exact aux (W := ["time-range"]) First.key (by decide +kernel) h
  rcases alt_inv h with h | h
  · exact aux (W := ["object"]) First.key (by decide +kernel) h
  rcases alt_inv h with h | h
  · exact aux (W := ["object-group"]) First.key (by decide +kernel) h
  rcases alt_inv h with h | h
  · exact aux (First.bind (First.bind (accessList_first hs.env))) (by decide +kernel) h
  rcases alt_inv h with h | h
  · exact aux (First.bind (First.bind remarks_first)) (by decide +kernel) h
  rcases alt_inv h with h | h
  · exact aux (First.bind (W := ["access-group"]) (First.alt First.key First.key)) (by decide +kernel) h
  rcases alt_inv h with h | h
  · exact aux (First.bind (W := ["nat"]) (First.alt First.key First.key)) (by decide +kernel) h
  rcases alt_inv h with h | h
  · obtain ⟨b, u, h1, h2⟩ := bind_inv h
    cases h2
    exact Or.inr h1
  rcases alt_inv h with h | h
  · exact aux (First.bind (First.bind First.nl)) (by decide +kernel) h
  cases h

/-- Every command begins with one of the words. -/
theorem command_first (hs : s.Clean) : First firstWords (command s) := by
  intro t x r h
  rcases command_known hs h with ⟨w, hw, hp⟩ | h
  · exact ⟨w, (by decide +kernel : ∀ w ∈ knownWords, w ∈ firstWords) w hw, hp⟩
  · exact ignored_first _ _ _ h

theorem commands_first (hs : s.Clean) {t : Text} {x : List Item × St} (h : commands s t = .ok x []) (hne : t ≠ []) :
    ∃ w ∈ firstWords, w.toList <+: t := by
  rw [commands] at h
  generalize hc : command s t = v at h
  cases v with
  | fail => cases h; exact absurd rfl hne
  | raise e => cases h
  | ok y r => exact command_first hs _ _ _ hc

theorem clean_new (g : Guard) : St.Clean { env := { guard := g } } :=
  ⟨⟨by simp, by simp, by simp, by simp, by simp, by simp, by simp, by simp, by simp⟩, by simp⟩

theorem parseFile_commands {t : List Char} {items : List Item} {r : List Char} (h : parseFile g t = .ok items r) :
    r = [] ∧ ∃ s', commands { env := { guard := g } } t = .ok (items, s') [] := by
  unfold parseFile at h
  generalize hc : commands { env := { guard := g } } t = v at h
  cases v with
  | fail => cases h
  | raise e => cases h
  | ok x r =>
    obtain ⟨l, s'⟩ := x
    cases r with
    | cons c r => cases h
    | nil =>
      simp only at h
      split at h
      · cases h
      · cases h
        exact ⟨rfl, s', rfl⟩

/-- The parser refuses the text: there is no configuration. -/
def Refused (g : Guard) (t : List Char) : Prop := ∀ items r, parseFile g t ≠ .ok items r

/-- A text with a line that begins with none of the words is refused. -/
theorem refused_unknown {t a u : List Char} {x : Char} (ht : t = a ++ x :: u) (ha : LineStart a) (hx : ¬ InC x)
    (hu : ∀ w ∈ firstWords, ¬ w.toList <+: x :: u) : Refused g t := by
  intro items r h
  obtain ⟨rfl, s', h⟩ := parseFile_commands h
  obtain ⟨s1, l1, hs1, h1⟩ := commands_sync rfl (clean_new g) ht ha hx h
  obtain ⟨w, hw, hp⟩ := commands_first hs1 h1 (by simp)
  exact hu w hw hp

theorem prefix_iff {w t : List Char} : w <+: t ↔ w.isPrefixOf t = true := List.isPrefixOf_iff_prefix.symm

/-- Which of the two is the longer one. -/
theorem prefix_either {w p u : List Char} (h : w <+: p ++ u) : w.isPrefixOf p = true ∨ p.isPrefixOf w = true := by
  rcases List.prefix_or_prefix_of_prefix h (List.prefix_append p u) with h | h
  · exact Or.inl (prefix_iff.1 h)
  · exact Or.inr (prefix_iff.1 h)

theorem known_ip : ∀ w ∈ knownWords, ∀ k ∈ ["ip", "ipv6"], ∀ c ∈ [' ', '\t'],
    ¬ (w.toList.isPrefixOf (k.toList ++ [c]) = true ∨ (k.toList ++ [c]).isPrefixOf w.toList = true) := by decide +kernel

theorem ignored_ip : ∀ kt ∈ ignoredList, ∀ k ∈ ["ip", "ipv6"], ∀ c ∈ [' ', '\t'],
    (kt.1.toList.isPrefixOf (k.toList ++ [c]) = true ∨ (k.toList ++ [c]).isPrefixOf kt.1.toList = true) →
    (kt.1 = k ∨ k = "ipv6" ∧ kt.1 = "ip") ∧ kt.2 = .ws := by decide +kernel

/-- An `ip` or `ipv6` line is one command. -/
theorem ip_command (hs : s.Clean) {k : String} {c : Char} {v z r : List Char} {x : Item × St} (hk : k ∈ ["ip", "ipv6"])
    (hc : c ∈ [' ', '\t']) (hv : '\n' ∉ v) (h : command s (k.toList ++ c :: (v ++ '\n' :: z)) = .ok x r) : r = z := by
  have e0 : k.toList ++ c :: (v ++ '\n' :: z) = (k.toList ++ [c]) ++ (v ++ '\n' :: z) := by simp
  rcases command_known hs h with ⟨w, hw, hp⟩ | h
  · rw [e0] at hp
    exact absurd (prefix_either hp) (known_ip w hw k hk c hc)
  · obtain ⟨kt, hkt, h⟩ := ignored_key h
    obtain ⟨b, u, h1, h2⟩ := bind_inv h
    obtain ⟨d, e1, -, rfl⟩ := reads_tok _ _ _ _ _ h1
    obtain ⟨hk1, hk2⟩ := ignored_ip kt hkt k hk c hc (prefix_either (u := v ++ '\n' :: z) ⟨u, by rw [← e0, e1]⟩)
    rw [hk2] at h2
    obtain ⟨_, u1, h3, h4⟩ := bind_inv h2
    have : u1 = r := by injection h4
    subst this
    obtain ⟨_, u2, h5, h6⟩ := bind_inv h3
    rcases hk1 with hk1 | ⟨rfl, hk1⟩
    rotate_left
    · exfalso
      rw [hk1] at e1
      obtain ⟨c1, rfl, hne, hw⟩ := reads_ws _ _ _ h5
      cases c1 with
      | nil => exact hne rfl
      | cons y c1 =>
        have e2 : "ip".toList ++ ('v' :: '6' :: c :: (v ++ '\n' :: z)) = "ip".toList ++ (y :: (c1 ++ u2)) := e1
        have e3 := List.append_cancel_left e2
        have e4 : 'v' = y := by injection e3
        subst e4
        rcases hw 'v' (by simp) with e | e <;> exact absurd e (by decide)
    rw [hk1] at e1
    have e2 := List.append_cancel_left e1
    subst e2
    obtain ⟨_, u3, h7, h8⟩ := bind_inv h6
    obtain ⟨c1, e3, -, hw⟩ := reads_ws _ _ _ h5
    obtain ⟨c2, e4, -, hn⟩ := reads_toeol _ _ _ h7
    obtain ⟨c3, e5, hc3⟩ := reads_nl _ _ _ h8
    have hn1 : '\n' ∉ c1 := by
      intro hm
      rcases hw _ hm with e | e <;> exact absurd e (by decide)
    have hcn : '\n' ≠ c := by
      simp only [List.mem_cons, List.not_mem_nil, or_false] at hc
      rcases hc with rfl | rfl <;> decide
    have e6 : (c :: v) ++ '\n' :: z = c1 ++ (c2 ++ (c3 ++ u1)) := by rw [← e5, ← e4, ← e3]; simp
    rcases hc3 with rfl | rfl
    · exact (lines_unique (l := c :: v) (l' := c1 ++ c2) (by simp [hcn, hv]) (by simp [hn1, hn]) (by simpa using e6)).2.symm
    · exact (lines_unique (l := c :: v) (l' := c1 ++ c2 ++ ['\r']) (by simp [hcn, hv]) (by simp [hn1, hn]) (by simpa using e6)).2.symm

/-- A text with an indented line behind an `ip` or `ipv6` line is refused. -/
theorem refused_ip {t a v z : List Char} {k : String} {c : Char} (ha : LineStart a) (hk : k ∈ ["ip", "ipv6"])
    (hc : c ∈ [' ', '\t']) (hv : '\n' ∉ v) (ht : t = a ++ (k.toList ++ c :: (v ++ '\n' :: (' ' :: z)))) : Refused g t := by
  intro items r h
  obtain ⟨rfl, s', h⟩ := parseFile_commands h
  obtain ⟨x, l, hx, hl⟩ : ∃ x l, ¬ InC x ∧ k.toList = x :: l := by
    simp only [List.mem_cons, List.not_mem_nil, or_false] at hk
    rcases hk with rfl | rfl
    · exact ⟨'i', ['p'], by decide, by decide⟩
    · exact ⟨'i', ['p', 'v', '6'], by decide, by decide⟩
  obtain ⟨s1, l1, hs1, h1⟩ := commands_sync (x := x) (u := l ++ c :: (v ++ '\n' :: (' ' :: z))) rfl (clean_new g)
    (by rw [ht, hl]; simp) ha hx h
  have e1 : x :: (l ++ c :: (v ++ '\n' :: (' ' :: z))) = k.toList ++ c :: (v ++ '\n' :: (' ' :: z)) := by rw [hl]; simp
  rw [e1, commands] at h1
  generalize hcm : command s1 (k.toList ++ c :: (v ++ '\n' :: (' ' :: z))) = w at h1
  cases w with
  | fail => simp at h1
  | raise e => cases h1
  | ok y r =>
    obtain ⟨i, s2⟩ := y
    have hr := ip_command hs1 hk hc hv hcm
    subst hr
    simp only at h1
    split at h1
    · generalize hq : commands s2 (' ' :: z) = w at h1
      cases w with
      | fail => cases h1
      | raise e => cases h1
      | ok q u =>
        cases h1
        obtain ⟨w, hw, hp⟩ := commands_first (command_clean hs1 _ _ _ hcm) hq (by simp)
        exact absurd (prefix_either (p := [' ']) hp) ((by decide +kernel : ∀ w ∈ firstWords,
          ¬ (w.toList.isPrefixOf [' '] = true ∨ [' '].isPrefixOf w.toList = true)) w hw)
    · simp at h1

/-! ## access-list lines -/

theorem first_nl {a : List Char} (h : '\n' ∈ a) : ∃ x y, a = x ++ '\n' :: y ∧ '\n' ∉ x := by
  induction a with
  | nil => cases h
  | cons c a ih =>
    by_cases hc : c = '\n'
    · subst hc; exact ⟨[], a, rfl, by simp⟩
    · rcases List.mem_cons.1 h with h | h
      · exact absurd h.symm hc
      · obtain ⟨x, y, rfl, hx⟩ := ih h
        exact ⟨c :: x, y, rfl, by simp only [List.mem_cons, not_or]; exact ⟨fun e => hc e.symm, hx⟩⟩

/-- A line is the first one or stands behind the first line end. -/
theorem line_at {a b u l z : List Char} (ha : LineStart a) (hl : '\n' ∉ l) (hz : z = [] ∨ ∃ y, z = '\n' :: y) (hb : '\n' ∉ b)
    (e : b ++ '\n' :: u = a ++ (l ++ z)) : b = l ∨ ∃ a', LineStart a' ∧ u = a' ++ (l ++ z) := by
  rcases ha with rfl | ⟨a', rfl⟩
  · refine Or.inl ?_
    rcases hz with rfl | ⟨y, rfl⟩
    · simp at e
      rw [← e] at hl
      simp at hl
    · exact (lines_unique hb hl (by simpa using e)).1
  · refine Or.inr ?_
    have e' : b ++ '\n' :: u = a' ++ '\n' :: (l ++ z) := by simpa using e
    by_cases hn : '\n' ∈ a'
    · obtain ⟨x1, y1, rfl, hx1⟩ := first_nl hn
      obtain ⟨-, rfl⟩ := lines_unique (l' := x1) (t' := y1 ++ '\n' :: (l ++ z)) hb hx1 (by simpa using e')
      exact ⟨y1 ++ ['\n'], Or.inr ⟨y1, rfl⟩, by simp⟩
    · obtain ⟨-, rfl⟩ := lines_unique hb hn e'
      exact ⟨[], Or.inl rfl, rfl⟩

theorem ruleLines_at {t : List Char} {hs : List (String × String × String)} (h : RuleLinesIndented t hs) {l z : List Char}
    (hl : '\n' ∉ l) (hz : z = [] ∨ ∃ y, z = '\n' :: y) (hp : "access-list".toList <+: l) : ∀ {a : List Char}, LineStart a →
    t = a ++ (l ++ z) → (∃ i k m, Header l i k m) ∨ Aside l := by
  induction h with
  | last b hb ho =>
    intro a ha ht
    have hal : a = [] ∧ z = [] := by
      rcases ha with rfl | ⟨a', rfl⟩
      · refine ⟨rfl, ?_⟩
        rcases hz with rfl | ⟨y, rfl⟩
        · rfl
        · rw [ht] at hb; simp at hb
      · rw [ht] at hb; simp at hb
    obtain ⟨rfl, rfl⟩ := hal
    simp at ht
    subst ht
    exact ho.elim (fun h => absurd hp h) Or.inr
  | rule b u i k m hs hb hh _ ih =>
    intro a ha ht
    rcases line_at ha hl hz hb ht with rfl | ⟨a', ha', e⟩
    · exact Or.inl ⟨i, k, m, hh⟩
    · exact ih ha' e
  | indented b v u i k m hs hb hv hh _ ih =>
    intro a ha ht
    have hbl : '\n' ∉ b ++ v := by
      have := blank_noNl hb.2
      simp [this, hv]
    rcases line_at ha hl hz hbl ht with rfl | ⟨a', ha', e⟩
    · exfalso
      have := ((SC.dead (t := []) hb).append v).1
      rw [prefix_iff] at hp
      unfold AL at this
      rw [hp] at this
      cases this
    · exact ih ha' e
  | other b u hs hb ho _ ih =>
    intro a ha ht
    rcases line_at ha hl hz hb ht with rfl | ⟨a', ha', e⟩
    · exact ho.elim (fun h => absurd hp h) Or.inr
    · exact ih ha' e

/-- A text with an access-list line that goes on with another word is refused. -/
theorem refused_accessList {t a l h v z : List Char} {i w : String} (hi : IdWord i) (hw : IdWord w)
    (hk : ∀ k ∈ ["extended", "standard", "webtype", "remark", "ethertype"],
      ¬ (w.toList.isPrefixOf k.toList = true ∨ k.toList.isPrefixOf w.toList = true)) (hs : Spaced ["access-list", i, w] h)
    (hv : ∃ x y, v = x :: y ∧ (x = ' ' ∨ x = '\t')) (ha : LineStart a) (hl : '\n' ∉ l) (hz : z = [] ∨ ∃ y, z = '\n' :: y)
    (he : l = h ++ v) (ht : t = a ++ (l ++ z)) : Refused g t := by
  intro items r hr
  obtain ⟨rfl, -⟩ := parseFile_commands hr
  have hh := ruleLines_at (C70_rules_are_lines g t items hr) hl hz (by
    obtain ⟨u, rfl⟩ := spaced_head hs
    exact ⟨u ++ v, by rw [he]; simp⟩) ha ht
  obtain ⟨b, c, hb, hb', hc, hc', rfl⟩ := spaced_three hs
  subst he
  rcases hh with ⟨j, k, m, hj, hk', hm', hd', x', u', hs', hx', e⟩ | ⟨j, w', hd, u, hj, hw', hs', e⟩
  · obtain ⟨b2, c2, d2, hb2, hb2', hc2, hc2', hd2, hd2', rfl⟩ := spaced_four hs'
    simp only [List.append_assoc] at e
    obtain ⟨rfl, e2⟩ := word_unique hb' hb2' hi hj (blanks_cons hc hc') (blanks_cons hc2 hc2') (List.append_cancel_left e)
    obtain ⟨rfl, -⟩ := word_unique hc' hc2' hw (kind_first hk') hv (blanks_cons hd2 hd2') e2
    refine hk w ?_ (Or.inl (prefix_iff.1 (List.prefix_refl _)))
    simp only [List.mem_cons, List.not_mem_nil, or_false] at hk' ⊢
    rcases hk' with rfl | rfl | rfl <;> simp
  · obtain ⟨b2, c2, hb2, hb2', hc2, hc2', rfl⟩ := spaced_three hs'
    simp only [List.append_assoc] at e
    obtain ⟨rfl, e2⟩ := word_unique hb' hb2' hi hj (blanks_cons hc hc') (blanks_cons hc2 hc2') (List.append_cancel_left e)
    have hwi : IdWord w' := by
      simp only [List.mem_cons, List.not_mem_nil, or_false] at hw'
      rcases hw' with rfl | rfl <;> exact ⟨by decide, by decide⟩
    obtain ⟨-, e3⟩ := split_unique (q := fun x => x = ' ' ∨ x = '\t') hc' hc2' (head_append_word (idWord_first hw) _)
      (head_append_word (idWord_first hwi) _) e2
    refine hk w' ?_ (Or.symm (prefix_either (w := w'.toList) (p := w.toList) (u := v) ⟨u, e3.symm⟩))
    simp only [List.mem_cons, List.not_mem_nil, or_false] at hw' ⊢
    rcases hw' with rfl | rfl <;> simp

end Acltk.FwsmText
