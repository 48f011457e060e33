import Verif.Props.AclText
import Verif.Props.AclLineInv
/-!
# C68: lines of the device that are not read (violated), and texts that are read but are no such lines
-/
namespace Acltk.AclText
open Acltk Acltk.Lookup Acltk.Peg

/-- The parser does not accept the text at this position: no alternative of `access_list` matches. -/
def NotRead (e : Env) (s : String) : Prop := accessList e s.toList = .fail

/-- The parser raises. -/
def Raises (e : Env) (s : String) (x : PyErr) : Prop := accessList e s.toList = .raise x

/-- The outcome as a number, for evaluation by the kernel. -/
def outcome {α : Type} : Res α → Option (Option PyErr)
  | .ok _ _ => none
  | .fail => some none
  | .raise e => some (some e)

theorem notRead_of {e : Env} {s : String} (h : outcome (accessList e s.toList) = some none) : NotRead e s := by
  unfold NotRead
  generalize accessList e s.toList = v at h
  cases v with
  | ok a r => cases h
  | fail => rfl
  | raise e => cases h

theorem raises_of {e : Env} {s : String} {x : PyErr} (h : outcome (accessList e s.toList) = some (some x)) : Raises e s x := by
  unfold Raises
  generalize accessList e s.toList = v at h
  cases v with
  | ok a r => cases h
  | fail => cases h
  | raise e => cases h; rfl

/-- **C68 (violated): log levels.** Of the eight level names of the device four are not known: a rule that
logs at level `emergencies`, `alerts`, `errors` or `informational` is not read. -/
theorem C68_violated_log_level :
    ∀ l ∈ ["emergencies", "alerts", "errors", "informational"],
      NotRead sampleEnv ("access-list a extended permit ip any any log " ++ l ++ "\n") := by
  have : ∀ l ∈ ["emergencies", "alerts", "errors", "informational"], outcome (accessList sampleEnv
      ("access-list a extended permit ip any any log " ++ l ++ "\n").toList) = some none := by decide +kernel
  exact fun l hl => notRead_of (this l hl)

/-- A configuration with a name that begins with `any-`. -/
def anyEnv : Env := { guard := tatsuGuard, names := [("any-dmz", ⟨.v4, 0x0a000000⟩)] }

/-- **C68 (violated): names.** A defined name that begins with `any-` cannot be used as a network, although
it can be used as a host. -/
theorem C68_violated_any_name :
    NotRead anyEnv "access-list a extended permit ip any-dmz 255.255.255.0 any\n" ∧
    ∃ r, accessList anyEnv "access-list a extended permit ip host any-dmz any\n".toList = .ok (some r) [] := by
  refine ⟨notRead_of (by decide +kernel), ?_⟩
  have h : (match accessList anyEnv "access-list a extended permit ip host any-dmz any\n".toList with
    | .ok (some _) [] => true | _ => false) = true := by decide +kernel
  split at h
  · rename_i r heq; exact ⟨r, heq⟩
  · cases h

/-- A configuration with a network group, a port group and a service group of the same name each. -/
def twinEnv : Env :=
  { guard := tatsuGuard, netGroups := [("web", .group "web" [.any]), ("dns", .group "dns" [.any])],
    portGroups := [("web", 1)], svcGroups := [("dns", 2)] }

/-- **C68 (violated): groups of the same name.** A network group as destination behind a source without
ports is taken for the port condition of the source if a port group has the same name (the line is
refused), and the parser raises if a service group has that name. -/
theorem C68_violated_same_name :
    NotRead twinEnv "access-list a extended permit tcp any object-group web\n" ∧
    Raises twinEnv "access-list a extended permit tcp any object-group dns\n" .assertion :=
  ⟨notRead_of (by decide +kernel), raises_of (by decide +kernel)⟩

/-- **C68 (violated): port ranges.** The bounds of a range are compared as texts: the range 80-443 raises. -/
theorem C68_violated_range :
    Raises sampleEnv "access-list a extended permit tcp any any range 80 443\n" .assertion :=
  raises_of (by decide +kernel)

/-- **C68 (violated): numbers with leading zeros** in an address raise instead of being refused. -/
theorem C68_violated_leading_zero :
    Raises sampleEnv "access-list a extended permit ip host 10.0.0.01 any\n" .value :=
  raises_of (by decide +kernel)

/-- **C68 (violated): words run together are accepted.**  The number of an interval may be followed
immediately by the next option. -/
theorem C68_violated_joined_words :
    ∃ r, accessList sampleEnv "access-list a extended permit ip any any log interval 300inactive\n".toList = .ok (some r) [] ∧
      dGet r.options "inactive" = some .inactive := by
  have h : (match accessList sampleEnv "access-list a extended permit ip any any log interval 300inactive\n".toList with
    | .ok (some r) [] => decide (dGet r.options "inactive" = some .inactive) | _ => false) = true := by decide +kernel
  split at h
  · rename_i r heq; exact ⟨r, heq, of_decide_eq_true h⟩
  · cases h

/-- **C67 (violated for files with carriage returns).** A rule line may end in CR LF, but then the text of a
remark line keeps the carriage return. -/
theorem C67_violated_carriage_return (e : Env) (he : e.WF) (ws : List String) (r : PRule) (h : RuleWords e ws r)
    (text : List Char) (hl : Line ws text) (i : String) (hi : IdWord i) (remark : List Char) (hn : '\n' ∉ remark)
    (rest : List Char) :
    ∃ r', accessList e ("access-list ".toList ++ (i.toList ++ (" remark ".toList ++ (remark ++ '\r' :: '\n' :: (text ++ rest))))) =
      .ok (some r') rest ∧ r'.remark = [remark ++ ['\r']] := by
  by_cases hid : i = r.id
  · subst hid
    have hsp : Spaced ["access-list", r.id, "remark"] ("access-list".toList ++ ([' '] ++ (r.id.toList ++ ([' '] ++ "remark".toList)))) :=
      .cons _ [' '] _ _ (by simp) (by intro c hc; simp at hc; exact Or.inl hc)
        (.cons _ [' '] _ _ (by simp) (by intro c hc; simp at hc; exact Or.inl hc) (.one _))
    obtain ⟨d, -, h2⟩ := C67_remarks_attached e he ws r h text hl _ [remark ++ ['\r']]
      (.cons r.id _ (remark ++ ['\r']) [] [] hi hsp (by simp [hn]) .nil) (by simp) rest
    refine ⟨{ r with options := d, remark := [remark ++ ['\r']] }, ?_, rfl⟩
    rw [← h2]
    congr 1
    have e1 : "access-list ".toList = "access-list".toList ++ [' '] := by decide
    have e2 : " remark ".toList = [' '] ++ ("remark".toList ++ [' ']) := by decide
    rw [e1, e2]
    simp only [List.append_assoc, List.cons_append, List.nil_append]
  · obtain ⟨r', h1, -, h3⟩ := C67_violated_other_list e he ws r h text hl i hi hid (remark ++ ['\r']) (by simp [hn]) rest
    refine ⟨r', ?_, h3⟩
    rw [← h1]
    simp only [List.append_assoc, List.cons_append, List.nil_append]

/-- A concrete case of C69: the sample line behind a remark. -/
theorem C69_sample : ∃ r, accessList sampleEnv
    ("access-list outside remark web servers\n".toList ++ sampleLine) = .ok (some r) [] ∧ r.remark = ["web servers".toList] := by
  have h : (match accessList sampleEnv ("access-list outside remark web servers\n".toList ++ sampleLine) with
    | .ok (some r) [] => decide (r.remark = ["web servers".toList]) | _ => false) = true := by decide +kernel
  split at h
  · rename_i r heq; exact ⟨r, heq, of_decide_eq_true h⟩
  · cases h

/-- An ethertype line is read and gives no rule. -/
theorem C69_ethertype_sample :
    ∃ rest, accessList sampleEnv "access-list l2 ethertype permit bpdu\nhostname fw\n".toList = .ok none rest ∧
      rest = "hostname fw\n".toList := by
  have h : (match accessList sampleEnv "access-list l2 ethertype permit bpdu\nhostname fw\n".toList with
    | .ok none r => decide (r = "hostname fw\n".toList) | _ => false) = true := by decide +kernel
  split at h
  · rename_i r heq; exact ⟨r, heq, of_decide_eq_true h⟩
  · cases h

end Acltk.AclText
