import Verif.Spec.RouteRowSpec
import Verif.Props.IfaceSection
import Verif.Props.Cells
/-!
# C124: what the row of a route says
-/
namespace Acltk.IosText
open Acltk Acltk.Lookup Acltk.Peg Acltk.AclText
open Acltk.FwsmText (St Val)

variable {g : Guard} {s : St} {e : Env}

/-- What the row of a route needs. -/
def RouteOk (r : Route) : Prop := r.net.Valid ∧ ∀ a, r.gw = .addr a → a.Valid

def RouteItem : Item → Prop
  | .route r => RouteOk r
  | _ => True

def RouteOut (x : Item × St) : Prop := RouteItem x.1 ∧ True

theorem strictNetwork_valid {a m : Addr} {n : Net} (h : strictNetwork a m = .ok n) : n.Valid := by
  unfold strictNetwork at h
  split at h
  · cases h
  · rename_i k hk
    split at h
    · cases h; exact IosConfig.mkNetwork_valid hk
    · cases h

theorem route_keep {p : P Item} (hp : Val p RouteItem) : Val (keep s p) RouteOut :=
  Val.bind hp fun _ hi => Val.pure ⟨hi, trivial⟩

theorem route_objectGroup : Val (objectGroup s) RouteOut := by
  unfold objectGroup
  exact Val.skip fun _ => Val.skip fun _ => Val.skip fun ⟨i, s'⟩ => Val.pure ⟨trivial, trivial⟩

theorem route_ip : Val (ip s) RouteItem := by
  unfold ip
  refine Val.skip fun _ => Val.skip fun _ => Val.alts_cons ?_ <| Val.alts_cons ?_ <| Val.alts_cons ?_ <| Val.alts_cons ?_ Val.alts_nil
  · exact Val.skip fun _ => Val.skip fun _ => Val.skip fun l => Val.pure trivial
  · exact Val.skip fun _ => Val.skip fun _ => Val.skip fun _ => Val.pure trivial
  · refine Val.skip fun _ => Val.skip fun _ => ?_
    unfold ipRoute routeTo
    refine Val.alt ?_ ?_
    · exact Val.skip fun _ => Val.skip fun _ => Val.pure trivial
    · refine Val.skip fun _ => Val.skip fun _ => Val.skip fun _ => Val.skip fun _ => Val.bind (V := fun w => ∀ a, w = .addr a → a.Valid) ?_ fun w hw => Val.skip fun _ =>
        Val.bind (V := Net.Valid) (Val.act fun n hn => strictNetwork_valid hn) fun n hn => Val.pure ⟨hn, hw⟩
      unfold routeGateway
      refine Val.alt (Val.bind FwsmText.val_ip4 fun a ha => Val.pure ?_) (Val.skip fun i => Val.pure ?_)
      · intro b e; cases e; exact ha
      · intro b e; cases e
  · exact Val.skip fun _ => Val.pure trivial

theorem route_ipv6 : Val (ipv6 e) RouteItem := by
  unfold ipv6
  refine Val.skip fun _ => Val.skip fun _ => Val.alt ?_ ?_
  · exact Val.skip fun l => Val.pure trivial
  · exact Val.skip fun _ => Val.pure trivial

theorem route_base {p : P FwsmText.Item} : Val (base p) RouteItem := Val.skip fun _ => Val.pure trivial

theorem route_command : Val (command s) RouteOut := by
  unfold command
  refine Val.alts_cons (route_keep route_base) <| Val.alts_cons (route_keep route_base) <|
    Val.alts_cons (route_keep route_base) <| Val.alts_cons ?_ <| Val.alts_cons route_objectGroup <|
    Val.alts_cons (route_keep ?_) <| Val.alts_cons (route_keep route_ip) <| Val.alts_cons (route_keep route_ipv6) <|
    Val.alts_cons (route_keep ?_) Val.alts_nil
  · unfold interface
    exact Val.skip fun _ => Val.skip fun _ => Val.skip fun _ => Val.skip fun _ => Val.skip fun _ => Val.skip fun _ => Val.pure ⟨trivial, trivial⟩
  · exact Val.skip fun _ => Val.pure trivial
  · exact Val.skip fun _ => Val.pure trivial

theorem parseFile_routes {t r : Text} {items : List Item} (h : parseFile g t = .ok items r) : ∀ i ∈ items, RouteItem i := by
  have key : ∀ (l : List Item) (s' : St) (u : Text), commands { env := { guard := g } } t = .ok (l, s') u → ∀ i ∈ l, RouteItem i := by
    intro l s' u hc
    exact (commands_inv (S := fun _ => True) (I := RouteItem) (fun s _ => route_command) _ _ _ _ _ _ rfl trivial hc).1
  unfold parseFile at h
  split at h
  · rename_i l s' u hc
    split at h
    · cases h
    · split at h
      · cases h; exact key _ _ _ hc
      · split at h
        · cases h; exact key _ _ _ hc
        · cases h
  · cases h
  · cases h

end Acltk.IosText

namespace Acltk.Cells
open Acltk

theorem gateway_unique {u : List Char} {x y : GatewayShown} (h : ReadsGateway u x) (h' : ReadsGateway u y) : x = y := by
  generalize hu : u = v at h'
  cases h with
  | address h =>
    cases h' with
    | address h' => subst hu; rw [h] at h'; cases h'; rfl
    | interface n => subst hu; exact absurd (by simp : ' ' ∈ "Interface ".toList ++ n.toList) (addr_no h).2.1
  | interface n =>
    cases h' with
    | address h' => subst hu; exact absurd (by simp : ' ' ∈ "Interface ".toList ++ n.toList) (addr_no h').2.1
    | interface m => rw [String.toList_inj.1 (List.append_cancel_left hu)]

theorem gateway_reads {w : IosText.Gateway} (h : ∀ a, w = .addr a → a.Valid) : ∃ x, GatewayIs w x ∧ ReadsGateway (gatewayText w) x := by
  cases w with
  | addr a => exact ⟨_, .address a, .address (ipAddress_text (h a rfl))⟩
  | iface i => exact ⟨_, .interface i, .interface _⟩

theorem gatewayIs_unique {w : IosText.Gateway} {x y : GatewayShown} (h : GatewayIs w x) (h' : GatewayIs w y) : x = y := by
  cases h <;> cases h' <;> rfl

/-- A text is a row of at most one route. -/
theorem route_unique {s : List Char} {n n' : Net} {x y : GatewayShown} (h : ReadsRoute s n x) (h' : ReadsRoute s n' y) : n = n' ∧ x = y := by
  obtain ⟨t, u, rfl, ht, -, hn, hg⟩ := h.parts
  obtain ⟨t', u', e, ht', -, hn', hg'⟩ := h'.parts
  obtain ⟨rfl, e1⟩ := first_sep ht ht' e
  obtain rfl := List.append_cancel_left e1
  rw [hn] at hn'
  cases hn'
  exact ⟨rfl, gateway_unique hg hg'⟩

theorem netText_reads {n : Net} (hv : n.Valid) : ' ' ∉ netText n ∧ '/' ∈ netText n ∧ ipNetwork (netText n) = .ok n := by
  have hv' : n.networkAddress.Valid := hv.2.1
  have h1 := (addr_no (ipAddress_text hv')).2.1
  have h2 : ' ' ∉ decText n.plen := dot_not_mem_decText _ (by decide)
  exact ⟨by simp [netText, h1, h2], by simp [netText], mkNetwork_self hv⟩

/-- **C124.** Whatever IOS text is accepted, the row of every route can be read, and only as its network and its gateway. -/
theorem C124_row (g : Lookup.Guard) (t u : List Char) (items : List IosText.Item) (h : IosText.parseFile g t = .ok items u) (r : IosText.Route) (hi : IosText.Item.route r ∈ items) :
    (∀ n x, ReadsRoute (routeText r) n x ↔ n = r.net ∧ GatewayIs r.gw x) ∧ ∃ x, ReadsRoute (routeText r) r.net x := by
  have ho : IosText.RouteOk r := IosText.parseFile_routes h _ hi
  obtain ⟨x, hx, hr⟩ := gateway_reads ho.2
  obtain ⟨h1, h2, h3⟩ := netText_reads ho.1
  have hread : ReadsRoute (routeText r) r.net x := ⟨_, _, rfl, h1, h2, h3, hr⟩
  refine ⟨fun n y => ⟨fun hy => ?_, fun hy => ?_⟩, x, hread⟩
  · obtain ⟨rfl, rfl⟩ := route_unique hread hy
    exact ⟨rfl, hx⟩
  · obtain ⟨rfl, hy⟩ := hy
    rw [gatewayIs_unique hy hx]
    exact hread

/-- Equal rows, also of different texts, are of routes to the same network, and by the same address or by interfaces of the same name. -/
theorem C124_equal_rows (g g' : Lookup.Guard) (t u t' u' : List Char) (items items' : List IosText.Item) (h : IosText.parseFile g t = .ok items u) (h' : IosText.parseFile g' t' = .ok items' u')
    (r r' : IosText.Route) (hi : IosText.Item.route r ∈ items) (hi' : IosText.Item.route r' ∈ items') (e : routeText r = routeText r') :
    r.net = r'.net ∧ ∀ x, GatewayIs r.gw x ↔ GatewayIs r'.gw x := by
  have h1 := (C124_row g t u items h r hi).1
  have h2 := (C124_row g' t' u' items' h' r' hi').1
  obtain ⟨x, hx⟩ := (C124_row g t u items h r hi).2
  rw [e] at h1 hx
  have hn : r.net = r'.net := ((h2 _ _).1 hx).1
  refine ⟨hn, fun y => ?_⟩
  constructor
  · intro hy
    exact ((h2 _ _).1 ((h1 r.net y).2 ⟨rfl, hy⟩)).2
  · intro hy
    exact ((h1 _ _).1 ((h2 r'.net y).2 ⟨rfl, hy⟩)).2

/-- The rows of the routes of an IOS text that is accepted. -/
def routeRows (t : String) : List (List Char) :=
  match IosText.parseFile Lookup.tatsuGuard t.toList with
  | .ok l _ => l.filterMap fun | .route r => some (routeText r) | _ => none
  | _ => []

/-- The hypotheses are met: a route by an address and one by an interface. -/
theorem C124_sample :
    routeRows "interface Gi1\n description wan\nip route 0.0.0.0 0.0.0.0 10.0.0.254\nip route 192.168.0.0 255.255.0.0 Gi1\n" = ["0.0.0.0/0 via 10.0.0.254".toList, "192.168.0.0/16 via Interface Gi1".toList] := by
  decide +kernel

end Acltk.Cells
