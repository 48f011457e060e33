import Verif.Lemmas.AclLine
/-!
# Reading whole access-list lines
-/
namespace Acltk.AclText
open Acltk Acltk.Lookup Acltk.Peg

theorem IdWord.word {w : String} (h : IdWord w) : Word w := by
  refine ⟨h.1, ?_⟩
  intro c hc hb
  have := h.2 c hc
  simp only [List.mem_cons, List.not_mem_nil, or_false] at hb
  rcases hb with rfl | rfl | rfl | rfl <;> revert this <;> decide

theorem objName_read {w : String} (h : IdWord w) {t : Text} (ht : EndOfWord t) : objName (w.toList ++ t) = .ok w.toList t := by
  apply pat_star
  · intro c hc
    rcases h.2 c hc with h1 | h1
    · simp [isNameChar, h1]
    · simp only [List.mem_cons, List.not_mem_nil, or_false] at h1
      rcases h1 with rfl | rfl | rfl | rfl <;> decide
  · obtain ⟨u, rfl | rfl | rfl | rfl⟩ := ht <;> (intro c hc; simp at hc; subst hc; decide)

theorem blanks_end {b t : Text} (hne : b ≠ []) (hb : Blanks b) : EndOfWord (b ++ t) := by
  cases b with
  | nil => exact absurd rfl hne
  | cons c b =>
    rcases hb c (by simp) with rfl | rfl
    · exact ⟨_, Or.inl rfl⟩
    · exact ⟨_, Or.inr (Or.inl rfl)⟩

theorem word_head {w : String} (hw : Word w) (t : Text) : ∀ c ∈ (w.toList ++ t).head?, c ≠ ' ' ∧ c ≠ '\t' := by
  intro c hc
  cases hl : w.toList with
  | nil => exact absurd hl hw.1
  | cons d l =>
    rw [hl] at hc; simp at hc; subst hc
    have := hw.2 d (by rw [hl]; simp)
    simp at this
    exact ⟨this.1, this.2.1⟩

/-- `access-list ID ` -/
theorem head_text {g : Guard} (hg : GuardOk g) {i : String} (hi : IdWord i) {b1 b2 x : Text} (h1 : b1 ≠ []) (hb1 : Blanks b1)
    (h2 : b2 ≠ []) (hb2 : Blanks b2) (hx : ∀ c ∈ x.head?, c ≠ ' ' ∧ c ≠ '\t') :
    head g ("access-list".toList ++ (b1 ++ (i.toList ++ (b2 ++ x)))) = .ok i x := by
  unfold head
  rw [bind_ok ((tok_word (noBlank_of_decide (by decide +kernel)) (blanks_end h1 hb1) hg.passes).1 rfl),
    bind_ok (ws_ok h1 hb1 (word_head hi.word _)), bind_ok (objName_read hi (blanks_end h2 hb2)), bind_ok (ws_ok h2 hb2 hx),
    String.ofList_toList]
  rfl

theorem head_read {g : Guard} (hg : GuardOk g) {i k : String} (hi : IdWord i) (hk : Word k) {rest : Text}
    {more : List String} {t : Text} (hs : Starts rest ("access-list" :: i :: k :: more) t) :
    ∃ t', head g t = .ok i t' ∧ Starts rest (k :: more) t' := by
  obtain ⟨t1, rfl, b1, t2, h1, hb1, rfl, b2, t3, h2, hb2, rfl, h3⟩ := hs
  exact ⟨k.toList ++ t3, head_text hg hi h1 hb1 h2 hb2 (word_head hk t3), t3, rfl, h3⟩

/-- From the line to the words. -/
theorem starts_of_spaced {ws : List String} {t : List Char} (h : Spaced ws t) {b n rest : Text} (hb : Blanks b)
    (hn : n = ['\n'] ∨ n = ['\r', '\n']) : Starts rest ws (t ++ (b ++ n) ++ rest) := by
  induction h with
  | one w => exact ⟨b ++ (n ++ rest), by simp, b, n, hb, hn, rfl⟩
  | cons w b1 ws t hne hb1 hs ih =>
    cases ws with
    | nil => cases hs
    | cons v ws =>
      obtain ⟨t', h1, h2⟩ := ih
      refine ⟨b1 ++ (v.toList ++ t'), ?_, b1, t', hne, hb1, rfl, h2⟩
      rw [← h1]; simp

theorem starts_of_line {ws : List String} {text : List Char} (h : Line ws text) (rest : Text) :
    Starts rest ws (text ++ rest) := by
  obtain ⟨t, b, n, hs, hb, hn, rfl⟩ := h
  exact starts_of_spaced hs hb hn

theorem mode_read {g : Guard} (hg : GuardOk g) {m : String} (hm : m ∈ ["permit", "deny"]) {t : Text} (ht : EndOfWord t) :
    mode g (m.toList ++ t) = .ok m t :=
  oneOf_word hg ht (kwNoBlank (by decide +kernel))
    ((by decide +kernel : ∀ m ∈ ["permit", "deny"], ["permit", "deny"].find? (mayMatch m) = some m) m hm)

theorem mode_word {m : String} (hm : m ∈ ["permit", "deny"]) : Word m := mem_word (by decide +kernel) hm

/-- `access-list ID KIND MODE ` -/
theorem start_read {g : Guard} (hg : GuardOk g) {i k m w : String} (hi : IdWord i) (hk : Word k)
    (hm : m ∈ ["permit", "deny"]) (hw : Word w) {rest : Text}
    {more : List String} {t : Text} (hs : Starts rest ("access-list" :: i :: k :: m :: w :: more) t) {β : Type}
    (f : String → String → String → P β) :
    ∃ t', (head g >>= fun i => tok g k >>= fun x => ws >>= fun _ => mode g >>= fun m => ws >>= fun _ => f i x m) t =
      f i k m t' ∧ Starts rest (w :: more) t' := by
  obtain ⟨t1, h1, t2, rfl, h2⟩ := head_read hg hi hk hs
  have h2 : After rest (m :: w :: more) t2 := h2
  obtain ⟨t3, h3, t4, rfl, h4⟩ := h2.blanks (mode_word hm)
  have h4 : After rest (w :: more) t4 := h4
  obtain ⟨t5, h5, h6⟩ := h4.blanks hw
  refine ⟨t5, ?_, h6⟩
  rw [bind_ok h1, bind_ok ((tok_word hk.noBlank h2.endOfWord hg.passes).1 rfl), bind_ok h3,
    bind_ok (mode_read hg hm h4.endOfWord), bind_ok h5]

/-- A rule of another kind. -/
theorem kind_fail {g : Guard} (hg : GuardOk g) {i k w : String} (hi : IdWord i) (hk : Word k) (hw : Word w)
    (hm : mayMatch k w = false) {rest : Text} {more : List String} {t : Text}
    (hs : Starts rest ("access-list" :: i :: k :: more) t) {β : Type} (f : String → String → P β) :
    (head g >>= fun i => tok g w >>= f i) t = .fail := by
  obtain ⟨t1, h1, t2, rfl, h2⟩ := head_read hg hi hk hs
  rw [bind_ok h1]
  exact bind_fail (tok_no hg hw.noBlank h2.endOfWord hm)

/-- The first word of a host is no operator. -/
theorem HostWords.first {e : Env} {hw : List String} {h : Host} (hh : HostWords e hw h) (he : e.WF) :
    ∀ w wl, hw = w :: wl → w ∉ ["gt", "lt", "eq", "neq", "range"] ∧
      (w = "object-group" → ∃ x, wl = [x] ∧ Word x) := by
  have hwords := (hh.words he).2
  have dig : ∀ {w : String} {n : Nat}, n < 2 ^ 32 → w.toList = Dotted n → ∀ k : String,
      (k.toList.head?.map Char.isDigit).getD true = false → w ≠ k := by
    rintro w n hn hw k hk rfl
    obtain ⟨c, t, hc, hd⟩ := dotted_head hn
    rw [hw, hc] at hk; simp [hd] at hk
  have has : ∀ {w : String} {c : Char}, c ∈ w.toList → ∀ k : String, c ∉ k.toList → w ≠ k := by
    rintro w c hc k hk rfl; exact hk hc
  have five : ∀ {w : String}, (∀ k ∈ ["gt", "lt", "eq", "neq", "range", "object-group"], w ≠ k) →
      w ∉ ["gt", "lt", "eq", "neq", "range"] ∧ w ≠ "object-group" := by
    intro w h
    refine ⟨?_, h _ (by simp)⟩
    intro hm
    exact h w (by
      simp only [List.mem_cons, List.not_mem_nil, or_false] at hm ⊢
      rcases hm with h | h | h | h | h <;> simp [h]) rfl
  intro w0 wl e0
  cases hh with
  | any => cases e0; exact ⟨by decide, fun h => absurd h (by decide)⟩
  | any4 => cases e0; exact ⟨by decide, fun h => absurd h (by decide)⟩
  | any6 => cases e0; exact ⟨by decide, fun h => absurd h (by decide)⟩
  | host k w a hk ha =>
    cases e0
    simp only [List.mem_cons, List.not_mem_nil, or_false] at hk
    rcases hk with rfl | rfl <;> exact ⟨by decide, fun h => absurd h (by decide)⟩
  | interface w hi => cases e0; exact ⟨by decide, fun h => absurd h (by decide)⟩
  | object w h hk => cases e0; exact ⟨by decide, fun h => absurd h (by decide)⟩
  | group w h hk => cases e0; exact ⟨by decide, fun _ => ⟨w, rfl, hwords w (by simp)⟩⟩
  | masked w m x q p n hx hw hq hm =>
    cases e0
    have := five (w := w0) (fun k hk => dig hx hw k (by revert k; decide +kernel))
    exact ⟨this.1, fun h => absurd h this.2⟩
  | maskedName w m x q p n hk hx hpl hq hm =>
    cases e0
    have h1 := hpl.1
    simp only [keywords, List.mem_cons, List.not_mem_nil, or_false, not_or] at h1
    refine ⟨by simp [h1], fun h => absurd h (by simp [h1])⟩
  | slash w a m x p n ha hw hm =>
    cases e0
    have hc : ':' ∈ w0.toList := by rw [hw]; exact List.mem_append.2 (Or.inl (v6_chars ha).1)
    have := five (w := w0) (fun k hk => has hc k (by revert k; decide +kernel))
    exact ⟨this.1, fun h => absurd h this.2⟩
  | slashName w a m x p n hk hv hpl hw hm =>
    cases e0
    have hc : '/' ∈ w0.toList := by rw [hw]; simp
    have := five (w := w0) (fun k hk => has hc k (by revert k; decide +kernel))
    exact ⟨this.1, fun h => absurd h this.2⟩

theorem NodeWords.first {e : Env} {nw : List String} {n : PNode} (hn : NodeWords e nw n) (he : e.WF) :
    ∀ w wl, nw = w :: wl → w ∉ ["gt", "lt", "eq", "neq", "range"] ∧
      (w = "object-group" → ∃ x wl', wl = x :: wl' ∧ Word x) := by
  cases hn with
  | host hw h hh =>
    intro w wl e0
    obtain ⟨a, b⟩ := hh.first he w wl e0
    exact ⟨a, fun hw => by obtain ⟨x, h1, h2⟩ := b hw; exact ⟨x, [], h1, h2⟩⟩
  | port hw pw h p hh hp =>
    intro w wl e0
    obtain ⟨hne, -⟩ := hh.words he
    cases hw with
    | nil => exact absurd rfl hne
    | cons v vl =>
      simp only [List.cons_append, List.cons.injEq] at e0
      obtain ⟨rfl, rfl⟩ := e0
      obtain ⟨a, b⟩ := hh.first he v vl rfl
      exact ⟨a, fun hw => by obtain ⟨x, h1, h2⟩ := b hw; exact ⟨x, pw, by rw [h1]; rfl, h2⟩⟩

theorem noPort_node {e : Env} (he : e.WF) {s : PNode} {dw : List String} {d : PNode} (hd : NodeWords e dw d)
    (ha : ¬ Ambiguous e s dw) (hs : s.port = none) (more : List String) : NoPort e (dw ++ more) := by
  obtain ⟨hne, -⟩ := hd.words he
  cases dw with
  | nil => exact absurd rfl hne
  | cons w wl =>
    obtain ⟨a, b⟩ := hd.first he w wl rfl
    refine ⟨a, fun hw => ?_⟩
    obtain ⟨x, wl', rfl, hx⟩ := b hw
    refine ⟨x, wl' ++ more, rfl, hx, ?_, ?_⟩
    · intro v hv; exact ha ⟨hs, x, wl', by rw [hw], Or.inl ⟨v, hv⟩⟩
    · intro v hv; exact ha ⟨hs, x, wl', by rw [hw], Or.inr ⟨v, hv⟩⟩

theorem noPort_options {e : Env} {ow : List String} (ho : ∀ w ∈ ow.head?, w ∈ optionWords) : NoPort e ow := by
  cases ow with
  | nil => trivial
  | cons w ow =>
    have := ho w (by simp)
    simp only [optionWords, List.mem_cons, List.not_mem_nil, or_false] at this
    rcases this with rfl | rfl | rfl <;> exact ⟨by decide, fun h => absurd h (by decide)⟩

/-- What `ExtendedWords` says about the line as a whole. -/
theorem ExtendedWords.shape {e : Env} {wl : List String} {r : PRule} (h : ExtendedWords e wl r) :
    ∃ i more, wl = "access-list" :: i :: "extended" :: more ∧ IdWord i := by
  cases h with
  | general i m pw sw dw ow r os hi => exact ⟨i, _, rfl, hi⟩
  | icmp i m p sw dw cw ow r os s d hi => exact ⟨i, _, rfl, hi⟩

theorem extended_read {e : Env} (he : e.WF) {wl : List String} {r : PRule} (h : ExtendedWords e wl r) {rest t : Text}
    (hs : Starts rest wl t) : ∃ d, (∀ k, dGet d k = dGet r.options k) ∧
      ruleExtended e t = .ok { r with options := d } rest := by
  have hg := he.guardOk
  have hx : Word "extended" := word_of_decide (by decide +kernel)
  cases h with
  | general i m pw sw dw ow r os hi hm hp hni hni6 hsw hdw hamb how e1 e2 e3 e4 e5 e6 e7 =>
    obtain ⟨pne, pwd⟩ := hp.words he
    obtain ⟨sne, swd⟩ := hsw.words he
    obtain ⟨dne, dwd⟩ := hdw.words he
    obtain ⟨owd, oh⟩ := how.words he
    obtain ⟨pf, pl, rfl⟩ : ∃ a l, pw = a :: l := by
      cases pw with
      | nil => exact absurd rfl pne
      | cons a l => exact ⟨a, l, rfl⟩
    obtain ⟨sf, sl, rfl⟩ : ∃ a l, sw = a :: l := by
      cases sw with
      | nil => exact absurd rfl sne
      | cons a l => exact ⟨a, l, rfl⟩
    obtain ⟨df, dl, rfl⟩ : ∃ a l, dw = a :: l := by
      cases dw with
      | nil => exact absurd rfl dne
      | cons a l => exact ⟨a, l, rfl⟩
    have hpf := pwd pf (by simp)
    have hnic : pf ∉ ["icmp", "icmp6"] := by
      intro hm'
      simp only [List.mem_cons, List.not_mem_nil, or_false] at hm'
      generalize r.protocol = rp at hp
      cases hp with
      | code w hw => rcases hm' with rfl | rfl <;> simp at hni hni6
      | number w hd => rcases hm' with rfl | rfl <;> simp at hni hni6
      | svcGroup w o hk => exact absurd hm' (by decide)
      | protoGroup w o hk _ => exact absurd hm' (by decide)
      | svcObj w o hk => exact absurd hm' (by decide)
    unfold ruleExtended
    -- the icmp form fails
    have f1 : ∀ {β : Type} (f : String → String → String → String → Unit → P β),
        (head e.guard >>= fun i => tok e.guard "extended" >>= fun x => ws >>= fun _ => mode e.guard >>= fun m =>
          ws >>= fun _ => oneOf e.guard ["icmp", "icmp6"] >>= fun p => ws >>= f i x m p) t = .fail := by
      intro β f
      obtain ⟨t', h1, t2, rfl, h2⟩ := start_read hg hi hx hm hpf (w := pf) hs
        (fun i x m => oneOf e.guard ["icmp", "icmp6"] >>= fun p => ws >>= f i x m p)
      rw [h1]
      exact kws_other hg (kwNoBlank (by decide +kernel)) hpf.noBlank h2.endOfWord hnic
    rw [alt_fail (f1 _)]
    obtain ⟨t1, h1, h2⟩ := start_read hg hi hx hm hpf (w := pf) hs (fun i x m => do
      let p ← aclProtocol e
      ws
      let s ← node e
      ws
      let d ← node e
      let o ← lineEnd e
      pure ({ id := i, extended := x, mode := m, protocol := p, src := s, dst := d, options := o } : PRule))
    obtain ⟨t2, h3, h4⟩ := proto_read he hp (more := sf :: sl ++ (df :: dl ++ ow)) h2
    obtain ⟨t3, h5, h6⟩ := After.blanks h4 (swd sf (by simp))
    have hmore : ∀ w ∈ df :: dl ++ ow, Word w := by
      intro w hw
      rcases List.mem_append.1 hw with hw | hw
      · exact dwd w hw
      · exact owd w hw
    obtain ⟨t4, h7, h8⟩ := node_read he hsw hmore (fun hn => noPort_node he hdw hamb hn ow) (t := t3) h6
    obtain ⟨t5, h9, h10⟩ := After.blanks h8 (dwd df (by simp))
    obtain ⟨t6, h11, h12⟩ := node_read he hdw owd (fun _ => noPort_options oh) (t := t5) h10
    obtain ⟨d, h13, h14⟩ := lineEnd_read he how h12
    refine ⟨d, fun k => by rw [h14 k, e4 k], ?_⟩
    have : (head e.guard >>= fun i => tok e.guard "extended" >>= fun x => ws >>= fun _ => mode e.guard >>= fun m =>
      ws >>= fun _ => (fun i x m => do
        let p ← aclProtocol e
        ws
        let s ← node e
        ws
        let d ← node e
        let o ← lineEnd e
        pure ({ id := i, extended := x, mode := m, protocol := p, src := s, dst := d, options := o } : PRule)) i x m) t =
        .ok { r with options := d } rest := by
      rw [h1]
      refine (bind_ok h3).trans ?_
      rw [bind_ok h5, bind_ok h7, bind_ok h9, bind_ok h11, bind_ok h13]
      cases r; simp_all; rfl
    exact this
  | icmp i m p sw dw cw ow r os s d hi hm hp hsw hdw hcw how e1 e2 e3 e4 e5 e6 e7 e8 e9 =>
    obtain ⟨sne, swd⟩ := hsw.words he
    obtain ⟨dne, dwd⟩ := hdw.words he
    obtain ⟨owd, oh⟩ := how.words he
    have hpw : Word p := mem_word (l := ["icmp", "icmp6"]) (by decide +kernel) hp
    obtain ⟨sf, sl, rfl⟩ : ∃ a l, sw = a :: l := by
      cases sw with
      | nil => exact absurd rfl sne
      | cons a l => exact ⟨a, l, rfl⟩
    obtain ⟨df, dl, rfl⟩ : ∃ a l, dw = a :: l := by
      cases dw with
      | nil => exact absurd rfl dne
      | cons a l => exact ⟨a, l, rfl⟩
    obtain ⟨t1, h1, t2, rfl, h2⟩ := start_read hg hi hx hm hpw (w := p) hs (fun i x m => do
      let p ← oneOf e.guard ["icmp", "icmp6"]
      ws
      let s ← aclHost e
      ws
      let d ← aclHost e
      let c ← icmpOptions e
      let o ← lineEnd e
      pure ({ id := i, extended := x, mode := m, protocol := .name p, src := ⟨s, none⟩, dst := ⟨d, none⟩, options := o,
              icmp := c } : PRule))
    have h2 : After rest (sf :: sl ++ (df :: dl ++ (cw ++ ow))) t2 := h2
    have h3 := oneOf_word hg (w := p) (l := ["icmp", "icmp6"]) h2.endOfWord (kwNoBlank (by decide +kernel)) (by
      simp only [List.mem_cons, List.not_mem_nil, or_false] at hp
      rcases hp with rfl | rfl <;> decide +kernel)
    obtain ⟨t3, h5, h6⟩ := After.blanks h2 (swd sf (by simp))
    obtain ⟨t4, h7, h8⟩ := host_read he hsw (t := t3) h6
    obtain ⟨t5, h9, h10⟩ := After.blanks h8 (dwd df (by simp))
    obtain ⟨t6, h11, h12⟩ := host_read he hdw (t := t5) h10
    obtain ⟨t7, h13, h14⟩ := icmp_read he hcw owd oh h12
    obtain ⟨o, h15, h16⟩ := lineEnd_read he how h14
    refine ⟨o, fun k => by rw [h16 k, e7 k], ?_⟩
    unfold ruleExtended
    apply alt_ok
    have : (head e.guard >>= fun i => tok e.guard "extended" >>= fun x => ws >>= fun _ => mode e.guard >>= fun m =>
      ws >>= fun _ => (fun i x m => do
        let p ← oneOf e.guard ["icmp", "icmp6"]
        ws
        let s ← aclHost e
        ws
        let d ← aclHost e
        let c ← icmpOptions e
        let o ← lineEnd e
        pure ({ id := i, extended := x, mode := m, protocol := .name p, src := ⟨s, none⟩, dst := ⟨d, none⟩, options := o,
                icmp := c } : PRule)) i x m) t =
        .ok { r with options := o } rest := by
      rw [h1]
      refine (bind_ok h3).trans ?_
      rw [bind_ok h5, bind_ok h7, bind_ok h9, bind_ok h11, bind_ok h13, bind_ok h15]
      cases r; simp_all; rfl
    exact this

end Acltk.AclText
