import Verif.Model.Web
import Verif.Props.FileText
import Verif.Props.AcceptedRender
/-!
# C97-C99: the web application
-/
namespace Acltk.Web
open Acltk Acltk.Lookup Acltk.Detect Acltk.DetectText Acltk.Caf Acltk.Resolve Acltk.ExpandFilter
open Acltk.ConfigFilter (select)
open Acltk.Accepted (RuleAt NatAt HoldsCfg InUse listOf)

variable {T : Type}

/-- The request uploads a file that holds a text which is the configuration `c` of that name. -/
def Uploads (a : App T) (req : Request) (n : String) (c : Conf T) : Prop :=
  ∃ bs t, req = .addPost (some bs) ∧ FileText.Holds t bs ∧ detect a.guard (PfFilter.parser a.xml a.env) (String.ofList t) = .config c ∧
    n = name c

/-- Among the requests, the last one that uploads a configuration of that name uploads `c`. -/
def Latest (a : App T) (reqs : List Request) (n : String) (c : Conf T) : Prop :=
  ∃ before req after, reqs = before ++ req :: after ∧ Uploads a req n c ∧ ∀ r ∈ after, ∀ c', ¬ Uploads a r n c'

/-! ## one request -/

theorem handle_upload {a : App T} {req : Request} {n : String} {c : Conf T} (h : Uploads a req n c) (db : Shelf T) :
    handle a db req = (dSet db n c, .toShow n) := by
  obtain ⟨bs, t, rfl, h1, h2, rfl⟩ := h
  show add a db (some bs) = _
  simp only [add]
  rw [(FileText.C95_config_file a.guard _ bs).1 t h1, h2]

theorem handle_other {a : App T} {req : Request} (h : ∀ n c, ¬ Uploads a req n c) (db : Shelf T) : (handle a db req).1 = db := by
  cases req with
  | addPost f =>
    cases f with
    | none => rfl
    | some bs =>
      show (add a db (some bs)).1 = db
      simp only [add]
      cases hc : FileText.configFromFile a.guard (PfFilter.parser a.xml a.env) bs with
      | config c =>
        obtain ⟨t, h1, h2⟩ := (FileText.C95_config_file a.guard _ bs).2.2 c hc
        exact absurd ⟨bs, t, rfl, h1, h2, rfl⟩ (h (name c) c)
      | _ => rfl
  | _ => rfl

theorem uploads_unique {a : App T} {req : Request} {n n' : String} {c c' : Conf T} (h : Uploads a req n c) (h' : Uploads a req n' c') :
    n = n' ∧ c = c' := by
  obtain ⟨bs, t, rfl, h1, h2, rfl⟩ := h
  obtain ⟨bs', t', e, h3, h4, rfl⟩ := h'
  cases e
  cases FileText.holds_unique h1 h3
  rw [h2] at h4
  cases h4
  exact ⟨rfl, rfl⟩

theorem serve_append (a : App T) (db : Shelf T) (l m : List Request) : serve a db (l ++ m) = serve a (serve a db l) m := by
  unfold serve; rw [List.foldl_append]

theorem latest_snoc {a : App T} {reqs : List Request} {req : Request} {n : String} {c : Conf T} :
    Latest a (reqs ++ [req]) n c ↔ Uploads a req n c ∨ (∀ c', ¬ Uploads a req n c') ∧ Latest a reqs n c := by
  constructor
  · rintro ⟨b, r, af, e, h1, h2⟩
    rcases List.eq_nil_or_concat af with rfl | ⟨af, x, rfl⟩
    · obtain ⟨e1, e2⟩ := List.append_inj' e rfl
      cases e2
      subst e1
      exact Or.inl h1
    · rw [show b ++ r :: (af.concat x) = (b ++ r :: af) ++ [x] by simp] at e
      obtain ⟨e1, e2⟩ := List.append_inj' e rfl
      cases e2
      subst e1
      exact Or.inr ⟨h2 req (by simp), b, r, af, rfl, h1, fun r hr => h2 r (by simp [hr])⟩
  · rintro (h | ⟨h1, b, r, af, rfl, h2, h3⟩)
    · exact ⟨reqs, req, [], rfl, h, by simp⟩
    · refine ⟨b, r, af ++ [req], by simp, h2, ?_⟩
      intro r' hr'
      rcases List.mem_append.1 hr' with hr' | hr'
      · exact h3 r' hr'
      · rw [List.mem_singleton.1 hr']; exact h1

/-- **C97.** After any sequence of requests the application knows a configuration by a name exactly if one of that name was uploaded, and
then it is the one uploaded last. -/
theorem C97_last_upload (a : App T) (reqs : List Request) (n : String) (c : Conf T) :
    dGet (serve a [] reqs) n = some c ↔ Latest a reqs n c := by
  suffices h : ∀ l : List Request, dGet (serve a [] l.reverse) n = some c ↔ Latest a l.reverse n c by
    have := h reqs.reverse
    rwa [List.reverse_reverse] at this
  intro l
  induction l with
  | nil =>
    constructor
    · intro h; cases h
    · rintro ⟨b, r, af, e, -⟩; cases b <;> cases e
  | cons req l ih =>
    rw [List.reverse_cons, serve_append, latest_snoc]
    show dGet (handle a (serve a [] l.reverse) req).1 n = some c ↔ _
    by_cases hu : ∃ n' c', Uploads a req n' c'
    · obtain ⟨n', c', hu⟩ := hu
      rw [handle_upload hu]
      show dGet (dSet _ n' c') n = some c ↔ _
      rw [dGet_dSet]
      by_cases hn : n = n'
      · subst hn
        rw [if_pos rfl]
        constructor
        · intro e; cases e; exact Or.inl hu
        · rintro (h | ⟨h, -⟩)
          · rw [(uploads_unique hu h).2]
          · exact absurd hu (h c')
      · rw [if_neg hn, ih]
        constructor
        · intro h
          exact Or.inr ⟨fun c'' h' => hn (uploads_unique h' hu).1, h⟩
        · rintro (h | ⟨-, h⟩)
          · exact absurd (uploads_unique h hu).1 hn
          · exact h
    · have hu : ∀ n' c', ¬ Uploads a req n' c' := fun n' c' h => hu ⟨n', c', h⟩
      rw [handle_other hu, ih]
      constructor
      · exact fun h => Or.inr ⟨hu n, h⟩
      · rintro (h | ⟨-, h⟩)
        · exact absurd h (hu _ _)
        · exact h

theorem latest_exists {a : App T} {n : String} : ∀ l : List Request, (∃ r ∈ l, ∃ c, Uploads a r n c) → ∃ c, Latest a l n c := by
  suffices h : ∀ l : List Request, (∃ r ∈ l.reverse, ∃ c, Uploads a r n c) → ∃ c, Latest a l.reverse n c by
    intro l; have := h l.reverse; rwa [List.reverse_reverse] at this
  intro l
  induction l with
  | nil => rintro ⟨r, hr, -⟩; cases hr
  | cons req l ih =>
    rw [List.reverse_cons]
    rintro ⟨r, hr, c, hc⟩
    by_cases hu : ∃ c', Uploads a req n c'
    · obtain ⟨c', hu⟩ := hu
      exact ⟨c', latest_snoc.2 (Or.inl hu)⟩
    · rcases List.mem_append.1 hr with hr | hr
      · obtain ⟨c', h⟩ := ih ⟨r, hr, c, hc⟩
        exact ⟨c', latest_snoc.2 (Or.inr ⟨fun c'' h' => hu ⟨c'', h'⟩, h⟩)⟩
      · rw [List.mem_singleton.1 hr] at hc
        exact absurd ⟨c, hc⟩ hu

theorem dKeys_dSet_nodup {α β : Type} [DecidableEq α] {d : Dict α β} {k : α} {v : β} (h : (dKeys d).Nodup) : (dKeys (dSet d k v)).Nodup := by
  rw [dKeys_dSet]
  split
  · exact h
  · rename_i hk
    rw [List.nodup_append]
    refine ⟨h, by simp, ?_⟩
    intro x hx y hy
    rw [List.mem_singleton.1 hy]
    rintro rfl
    exact hk hx

theorem keys_nodup (a : App T) (reqs : List Request) : (dKeys (serve a [] reqs)).Nodup := by
  suffices h : ∀ (l : List Request) (db : Shelf T), (dKeys db).Nodup → (dKeys (serve a db l)).Nodup from h reqs [] List.nodup_nil
  intro l
  induction l with
  | nil => intro db h; exact h
  | cons req l ih =>
    intro db h
    refine ih _ ?_
    show (dKeys (handle a db req).1).Nodup
    by_cases hu : ∃ n' c', Uploads a req n' c'
    · obtain ⟨n', c', hu⟩ := hu
      rw [handle_upload hu]
      exact dKeys_dSet_nodup h
    · rw [handle_other fun n' c' h => hu ⟨n', c', h⟩]
      exact h

/-- **C97.** The index offers every name that was uploaded, once, and no other. -/
theorem C97_index (a : App T) (reqs : List Request) : ∃ names, (handle a (serve a [] reqs) .indexGet).2 = .index names ∧ names.Nodup ∧
    ∀ n, n ∈ names ↔ ∃ r ∈ reqs, ∃ c, Uploads a r n c := by
  refine ⟨_, rfl, keys_nodup a reqs, fun n => ?_⟩
  rw [← dGet_isSome_iff]
  constructor
  · intro h
    cases hd : dGet (serve a [] reqs) n with
    | none => rw [hd] at h; cases h
    | some c =>
      obtain ⟨b, r, af, rfl, h1, -⟩ := (C97_last_upload a reqs n c).1 hd
      exact ⟨r, by simp, c, h1⟩
  · intro h
    obtain ⟨c, hc⟩ := latest_exists reqs h
    rw [(C97_last_upload a reqs n c).2 hc]
    rfl

/-- **C97.** No request but the upload of a configuration changes anything, whatever has been stored: neither looking at a page, with
groups expanded or not, nor a filter, nor a file that is refused. -/
theorem C97_only_uploads (a : App T) (db : Shelf T) (req : Request) (h : ∀ n c, ¬ Uploads a req n c) :
    (handle a db req).1 = db ∧ ∀ l m, serve a db (l ++ req :: m) = serve a db (l ++ m) := by
  refine ⟨handle_other h db, fun l m => ?_⟩
  rw [serve_append, serve_append]
  show serve a (handle a (serve a db l) req).1 m = _
  rw [handle_other h]

/-- **C97.** What a page answers depends on nothing but the configuration of that name uploaded last: whatever else was requested
before, in whatever order. -/
theorem C97_independent (a : App T) (reqs reqs' : List Request) (n : String) (args : Args) (hn : args.config = some n)
    (h : ∀ c, Latest a reqs n c ↔ Latest a reqs' n c) :
    (handle a (serve a [] reqs) (.showGet args)).2 = (handle a (serve a [] reqs') (.showGet args)).2 := by
  have e : dGet (serve a [] reqs) n = dGet (serve a [] reqs') n := by
    apply Option.ext
    intro c
    rw [C97_last_upload, C97_last_upload, h]
  show showPage a _ args = showPage a _ args
  unfold showPage
  rw [hn]
  simp only [e]

/-- **C97.** Whoever uploads a configuration is sent to its page, and finds it there. -/
theorem C97_upload_then_show (a : App T) (db : Shelf T) (req : Request) (n : String) (c : Conf T) (h : Uploads a req n c) :
    (handle a db req).2 = .toShow n ∧
    (handle a (handle a db req).1 (.showGet { config := some n })).2 = .page ⟨c, false, false, "", false, .nothing⟩ := by
  rw [handle_upload h]
  refine ⟨rfl, ?_⟩
  show showPage a (dSet db n c) { config := some n } = _
  unfold showPage
  simp only [dGet_dSet_same]
  rfl

/-! ## what a page shows -/

/-- **C98.** A page without a filter, or with an empty one, selects nothing and warns of nothing; a page with a filter that is refused
selects nothing and warns; the page of a name nobody uploaded does not exist. -/
theorem C98_no_filter (a : App T) (db : Shelf T) (args : Args) (n : String) (hn : args.config = some n) :
    (dGet db n = none → handle a db (.showGet args) = (db, .notFound)) ∧
    ∀ c, dGet db n = some c → (truthy args.exp = true → ∃ heap, a.expand c = .ok heap) →
      ((∀ t, args.caf = some t → t = "") →
        handle a db (.showGet args) = (db, .page ⟨c, truthy args.exp, truthy args.sns, "", false, .nothing⟩)) ∧
      ∀ t, args.caf = some t → t ≠ "" → (∀ e r, CafText.parse a.guard a.nest t.toList ≠ .ok e r) →
        handle a db (.showGet args) = (db, .page ⟨c, truthy args.exp, truthy args.sns, t, true, .nothing⟩) := by
  refine ⟨fun h => ?_, fun c hc hx => ?_⟩
  · show (db, showPage a db args) = _
    simp only [showPage, hn, h]
  · obtain ⟨heap, hh⟩ : ∃ heap, (if truthy args.exp then a.expand c else .ok (heapOf c)) = .ok heap := by
      cases ht : truthy args.exp with
      | true => exact hx ht
      | false => exact ⟨_, rfl⟩
    constructor
    · intro h0
      show (db, showPage a db args) = _
      simp only [showPage, hn, hc, hh]
      cases ha : args.caf with
      | none => rfl
      | some t => rw [h0 t ha]; rfl
    · intro t ha h0 hr
      show (db, showPage a db args) = _
      simp only [showPage, hn, hc, hh, runFilter, ha, if_neg h0]
      cases hp : CafText.parse a.guard a.nest t.toList with
      | ok e r => exact absurd hp (hr e r)
      | _ => rfl

/-- The entries a page works on, with groups expanded (`b`) or not, and the selection in them. -/
theorem select_heap (a : App T) (b : Bool) (c : Conf T) (config : String) (hc : detect a.guard (PfFilter.parser a.xml a.env) config = .config c)
    (t : List Char) (e : Expr) (rest : List Char) (hf : CafText.parse a.guard a.nest t = .ok e rest)
    (hexp : b = true → (∃ heap', a.expand c = .ok heap' ∧ ∀ k x, RuleAt c k x ∨ NatAt c k x → EntryExpands x (heap' k)) ∧
      (NoKeyword e ∨ ∀ k x, RuleAt c k x ∨ NatAt c k x → ∀ h, HostOf h x → NoAnyObject h)) :
    ∃ heap, (if b then a.expand c else .ok (heapOf c)) = .ok heap ∧ ∃ N, ∀ fuel, N ≤ fuel →
      ∃ sel r, select a.guard (PfFilter.parser a.xml a.env) (PfFilter.filter fuel) a.nest fuel t config = some (.ok sel) ∧
        (∀ k ∈ sel, ∃ x, RuleAt c k x ∨ NatAt c k x) ∧ filterOn fuel heap c e = .ok r ∧ sel.Perm r := by
  obtain ⟨_, _, -, -, M, hM⟩ := Accepted.C93_accepted_texts_are_filtered a.guard a.xml a.env a.nest t rest e hf config c hc
  cases hx : b with
  | true =>
    obtain ⟨⟨heap', h1, h2⟩, h3⟩ := hexp hx
    obtain ⟨N, hN⟩ := Accepted.C92_accepted_texts_partial a.guard a.xml a.env a.nest t rest e hf config c hc heap' h2 h3
    refine ⟨heap', h1, N + M, fun fuel hl => ?_⟩
    obtain ⟨r, r', i1, i2, i3⟩ := hN fuel (by omega)
    obtain ⟨s, j1, -, j3, -⟩ := (hM fuel (by omega)).2
    rw [j1] at i1
    cases i1
    exact ⟨_, r', j1, j3, i2, i3⟩
  | false =>
    refine ⟨heapOf c, rfl, M, fun fuel hl => ?_⟩
    obtain ⟨s, j1, -, j3, -⟩ := (hM fuel hl).2
    have := (Accepted.loaded a.guard a.xml a.env config c hc).2 a.nest fuel t e rest hf
    rw [j1] at this
    exact ⟨s, s, j1, j3, (Option.some.inj this).symm, List.Perm.refl _⟩

/-- **C98, what holds.** A page with a filter shows the configuration and the selection the filter makes in it (`select`: the
subject of C93), whether or not its groups are expanded — in that case the filter has no keyword or no network object holds the
address any — completed to what the selection refers to; there is no warning, unless a rule of the selection belongs to a list that an interface
of an IOS configuration uses: then there is one, and the selection is shown as it is.  The store stays as it is. -/
theorem C98_page_partial (a : App T) (db : Shelf T) (args : Args) (n : String) (hn : args.config = some n) (c : Conf T) (hdb : dGet db n = some c)
    (config : String) (hc : detect a.guard (PfFilter.parser a.xml a.env) config = .config c)
    (t : String) (ht : args.caf = some t) (h0 : t ≠ "") (e : Expr) (rest : List Char) (hf : CafText.parse a.guard a.nest t.toList = .ok e rest)
    (hexp : truthy args.exp = true → (∃ heap', a.expand c = .ok heap' ∧ ∀ k x, RuleAt c k x ∨ NatAt c k x → EntryExpands x (heap' k)) ∧
      (NoKeyword e ∨ ∀ k x, RuleAt c k x ∨ NatAt c k x → ∀ h, HostOf h x → NoAnyObject h))
    (U : List El) (hU : HoldsCfg (a.info (truthy args.exp) c) c U)
    (ho0 : ∀ r x, x ∈ a.order0 r ↔ x ∈ r) (hord : ∀ n r x, x ∈ a.order n r ↔ x ∈ r) :
    ∃ N, ∀ fuel rounds, N ≤ fuel → N ≤ rounds → ∃ sel warning shown,
      select a.guard (PfFilter.parser a.xml a.env) (PfFilter.filter fuel) a.nest fuel t.toList config = some (.ok sel) ∧
      handle { a with fuel := fuel, rounds := rounds } db (.showGet args) =
        (db, .page ⟨c, truthy args.exp, truthy args.sns, t, warning, shown⟩) ∧
      (warning = true ↔ ∃ k x s, k ∈ sel ∧ RuleAt c k x ∧ listOf x = some s ∧ InUse c s) ∧
      (warning = true → ∃ r, shown = .raw r ∧ r.Perm sel) ∧
      (warning = false → ∃ r, shown = .resolved r ∧ ∀ x, x ∈ r ↔ Closure (a.info (truthy args.exp) c) (sel.map .obj) x) := by
  obtain ⟨heap, hh, N, hN⟩ := select_heap a (truthy args.exp) c config hc t.toList e rest hf hexp
  refine ⟨N + U.length + 1, fun fuel rounds h1 h2 => ?_⟩
  obtain ⟨sel, r, i1, i2, i3, i4⟩ := hN fuel (by omega)
  have i2' : ∀ k ∈ r, ∃ x, RuleAt c k x ∨ NatAt c k x := fun k hk => i2 k (i4.mem_iff.2 hk)
  obtain ⟨r1, r2⟩ := Accepted.resolve_entries hU a.order0 a.order ho0 hord i2' (rounds := rounds) (by omega)
  have hbad : (∃ k x s, k ∈ r ∧ RuleAt c k x ∧ listOf x = some s ∧ InUse c s) ↔
      ∃ k x s, k ∈ sel ∧ RuleAt c k x ∧ listOf x = some s ∧ InUse c s := by
    simp only [i4.mem_iff]
  refine ⟨sel, ?_⟩
  cases hr : resolve (a.info (truthy args.exp) c) (Render.keys c) rounds a.order0 a.order (r.map .obj) with
  | error err =>
    refine ⟨true, .raw r, i1, ?_, ?_, ?_, by simp⟩
    · show (db, showPage _ db args) = _
      simp only [showPage, hn, hdb, hh, runFilter, ht, if_neg h0, hf, i3, hr]
    · rw [← hbad, ← r1]
      exact ⟨fun _ => ⟨err, hr⟩, fun _ => rfl⟩
    · exact fun _ => ⟨r, rfl, i4.symm⟩
  | ok v =>
    obtain ⟨res, rfl, hres⟩ := r2 v hr
    refine ⟨false, .resolved res, i1, ?_, ?_, by simp, ?_⟩
    · show (db, showPage _ db args) = _
      simp only [showPage, hn, hdb, hh, runFilter, ht, if_neg h0, hf, i3, hr]
    · rw [← hbad, ← r1]
      constructor
      · intro h; cases h
      · rintro ⟨err, he⟩; rw [hr] at he; cases he
    · refine fun _ => ⟨res, rfl, fun x => ?_⟩
      rw [hres]
      exact Accepted.closure_congr (fun y => by simp only [List.mem_map, i4.mem_iff]) x

/-! ## uploads that are refused -/

/-- **C99, what holds.** A file is taken exactly if it holds a configuration; any other one leaves the store as it is and is answered by a
server error. -/
theorem C99_refused_upload_partial (a : App T) (db : Shelf T) (bs : List UInt8) :
    (∃ n c, Uploads a (.addPost (some bs)) n c ∧ handle a db (.addPost (some bs)) = (dSet db n c, .toShow n)) ∨
    ((∀ n c, ¬ Uploads a (.addPost (some bs)) n c) ∧ handle a db (.addPost (some bs)) = (db, .serverError)) := by
  by_cases hu : ∃ n c, Uploads a (.addPost (some bs)) n c
  · obtain ⟨n, c, h⟩ := hu
    exact Or.inl ⟨n, c, h, handle_upload h db⟩
  · refine Or.inr ⟨fun n c h => hu ⟨n, c, h⟩, ?_⟩
    show add a db (some bs) = (db, .serverError)
    simp only [add]
    cases hc : FileText.configFromFile a.guard (PfFilter.parser a.xml a.env) bs with
    | config c =>
      obtain ⟨t, h1, h2⟩ := (FileText.C95_config_file a.guard _ bs).2.2 c hc
      exact absurd ⟨name c, c, bs, t, rfl, h1, h2, rfl⟩ hu
    | _ => rfl

/-- **C99 is violated**: no upload, and no other request, is ever answered by sending the user back to the index. -/
theorem C99_violated (a : App T) (db : Shelf T) (req : Request) : (handle a db req).2 ≠ .toIndex := by
  cases req with
  | addPost f =>
    cases f with
    | none => intro h; cases h
    | some bs =>
      rcases C99_refused_upload_partial a db bs with ⟨n, c, -, h⟩ | ⟨-, h⟩ <;> rw [h] <;> intro h <;> cases h
  | showGet args =>
    show showPage a db args ≠ .toIndex
    unfold showPage
    repeat' split
    all_goals (intro h; cases h)
  | _ => intro h; cases h

/-! ## samples -/

/-- An application without a URL library that refuses every XML text, expands the groups of the sample of C92 and has the sample objects of C90. -/
def sampleApp (env : Pf.Env T) : App T :=
  { guard := tatsuGuard, xml := fun _ => none, env := env, nest := 6, fuel := 0, rounds := 0, order0 := id, order := fun _ r => r.reverse,
    expand := fun _ => .ok Accepted.sampleExpanded, info := fun _ => Accepted.sampleInfo }

/-- The upload of the sample file of C72, and one of a file that is no text. -/
def sampleUpload : Request := .addPost (some (FileText.Utf8 FwsmText.sampleText.dropLast))
def sampleRefused : Request := .addPost (some [0x21, 0x20, 0xe4, 0x0a])

theorem sample_uploads (env : Pf.Env T) : ∃ items, Uploads (sampleApp env) sampleUpload (name (T := T) (.fwsm items)) (.fwsm items) ∧
    detect tatsuGuard (PfFilter.parser (fun _ => none) env) (String.ofList FwsmText.sampleText.dropLast) = .config (.fwsm items) := by
  obtain ⟨-, items, h, -⟩ := Accepted.C92_text_sample (T := T) (PfFilter.parser (fun _ => none) env)
  exact ⟨items, ⟨_, FwsmText.sampleText.dropLast, rfl, Or.inr ⟨rfl, by decide +kernel⟩, h, rfl⟩, h⟩

theorem sample_refused (env : Pf.Env T) (n : String) (c : Conf T) : ¬ Uploads (sampleApp env) sampleRefused n c := by
  intro h
  have h := handle_upload h []
  have e := (FileText.C95_sample_refused tatsuGuard (PfFilter.parser (fun _ => none) env)).1
  have h' : add (sampleApp env) [] (some [0x21, 0x20, 0xe4, 0x0a]) = (dSet [] n c, .toShow n) := h
  simp only [add] at h'
  rw [show FileText.configFromFile (sampleApp env).guard (PfFilter.parser (sampleApp env).xml (sampleApp env).env) [0x21, 0x20, 0xe4, 0x0a] = .exception () from e] at h'
  cases h'

/-- C97: uploads of both kinds with other requests between them; the accepted one is the last of its name. -/
theorem C97_sample (env : Pf.Env T) : ∃ n c, Latest (sampleApp env) [sampleRefused, sampleUpload, .indexGet, .showGet { config := some "x" }, sampleRefused] n c ∧
    ∀ m d, ¬ Uploads (sampleApp env) sampleRefused m d := by
  obtain ⟨items, h, -⟩ := sample_uploads env
  refine ⟨_, _, ⟨[sampleRefused], sampleUpload, _, rfl, h, ?_⟩, sample_refused env⟩
  intro r hr d hd
  simp only [List.mem_cons, List.not_mem_nil, or_false] at hr
  rcases hr with rfl | rfl | rfl
  · obtain ⟨_, _, e, _⟩ := hd; cases e
  · obtain ⟨_, _, e, _⟩ := hd; cases e
  · exact sample_refused env _ _ hd

/-- C98: a page with expanded groups meets the hypotheses: the sample of C92 has been uploaded, and the filter is the one of C93. -/
theorem C98_sample (env : Pf.Env T) : ∃ n c e rest, dGet (serve (sampleApp env) [] [sampleUpload]) n = some c ∧
    detect tatsuGuard (PfFilter.parser (fun _ => none) env) (String.ofList FwsmText.sampleText.dropLast) = .config c ∧
    CafText.parse tatsuGuard 6 (String.ofList Accepted.sampleFilter).toList = .ok e rest ∧
    (∃ heap', (sampleApp env).expand c = .ok heap' ∧ ∀ k x, RuleAt c k x ∨ NatAt c k x → EntryExpands x (heap' k)) ∧
    (∀ k x, RuleAt c k x ∨ NatAt c k x → ∀ h, HostOf h x → NoAnyObject h) ∧ (∃ x, RuleAt c 6 x) ∧
    ∃ U, HoldsCfg ((sampleApp env).info true c) c U := by
  obtain ⟨⟨e, rest, hp⟩, items, h, hx, x, h6, -⟩ := Accepted.C92_text_sample (T := T) (PfFilter.parser (fun _ => none) env)
  have hu : Uploads (sampleApp env) sampleUpload (name (T := T) (.fwsm items)) (.fwsm items) :=
    ⟨_, FwsmText.sampleText.dropLast, rfl, Or.inr ⟨rfl, by decide +kernel⟩, h, rfl⟩
  refine ⟨name (T := T) (.fwsm items), .fwsm items, e, rest, ?_, h, ?_, ⟨_, rfl, fun k x hk => (hx k x hk).1⟩, fun k x hk => (hx k x hk).2, ⟨x, h6⟩,
    Accepted.sample_holds (.fwsm items)⟩
  · rw [C97_last_upload]
    exact ⟨[], sampleUpload, [], rfl, hu, by simp⟩
  · rw [String.toList_ofList]; exact hp

/-- C99: a user uploads a file that is no configuration, and is not sent back to the index. -/
theorem C99_sample (env : Pf.Env T) : handle (sampleApp env) [] sampleRefused = ([], .serverError) := by
  rcases C99_refused_upload_partial (sampleApp env) [] [0x21, 0x20, 0xe4, 0x0a] with ⟨n, c, h, -⟩ | ⟨-, h⟩
  · exact absurd h (sample_refused env n c)
  · exact h

end Acltk.Web
