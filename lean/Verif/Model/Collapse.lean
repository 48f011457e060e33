import Verif.Model.Summarize
/-!
# Collapsing address lists

`ipaddress.collapse_addresses` (CPython 3.11) and `NetworkGroup._collapse` (aclObjects.py:620-642).
-/
namespace Acltk

/-- `_BaseNetwork.supernet()`, ipaddress.py:982-1022 with the default `prefixlen_diff=1`. The
constructor is strict; its check never fails here (`supernet_valid`). -/
def supernet (n : Net) : Net :=
  if n.plen = 0 then n else ⟨n.ver, n.addr &&& (n.netmask <<< 1), n.plen - 1⟩

/-- `dict.get` on an insertion-ordered dictionary. -/
def dictGet {α β : Type} [DecidableEq α] (d : List (α × β)) (k : α) : Option β :=
  (d.find? (fun p => decide (p.1 = k))).map (·.2)

/-- `del d[k]`. -/
def dictDel {α β : Type} [DecidableEq α] (d : List (α × β)) (k : α) : List (α × β) :=
  d.filter (fun p => decide (p.1 ≠ k))

/-- First phase of `_collapse_addresses_internal`, ipaddress.py:277-289.  `toMerge` is the stack
with its top first (`to_merge.pop()` takes the last element of the Python list). -/
def mergeLoop (toMerge : List Net) (subnets : List (Net × Net)) : List (Net × Net) :=
  match toMerge with
  | [] => subnets
  | net :: rest =>
    match _h : dictGet subnets (supernet net) with
    | none => mergeLoop rest (subnets ++ [(supernet net, net)])
    | some existing =>
      if existing ≠ net then mergeLoop (supernet net :: rest) (dictDel subnets (supernet net))
      else mergeLoop rest subnets
termination_by 2 * toMerge.length + subnets.length
decreasing_by
  · simp only [List.length_cons, List.length_append, List.length_nil]; omega
  · have : (dictDel subnets (supernet net)).length < subnets.length := by
      unfold dictGet at _h
      cases hf : subnets.find? (fun p => decide (p.1 = supernet net)) with
      | none => rw [hf] at _h; cases _h
      | some p =>
        unfold dictDel
        refine List.length_filter_lt_length_iff_exists.2 ?_
        refine ⟨p, List.mem_of_find?_eq_some hf, ?_⟩
        have := List.find?_some hf
        simpa using this
    simp only [List.length_cons]; omega
  · simp only [List.length_cons]; omega

/-- `_BaseNetwork.__lt__`, ipaddress.py:716-726, as the non-strict comparison used for sorting
networks of one version: by network address, then by netmask. -/
def netLe (a b : Net) : Bool :=
  decide (a.addr < b.addr) || (decide (a.addr = b.addr) && decide (a.netmask ≤ b.netmask))

/-- Second phase, ipaddress.py:291-301: skip networks whose broadcast address does not exceed that
of the last network yielded. -/
def skipSubsumed : Option Net → List Net → List Net
  | _, [] => []
  | none, n :: t => n :: skipSubsumed (some n) t
  | some last, n :: t =>
    if last.broadcast.ip ≥ n.broadcast.ip then skipSubsumed (some last) t
    else n :: skipSubsumed (some n) t

/-- `_collapse_addresses_internal`, ipaddress.py:255-301.  `sorted` on networks of different
versions raises TypeError. -/
def collapseInternal (nets : List Net) : Py (List Net) :=
  let vals := (mergeLoop nets.reverse []).map (·.2)
  if vals.any (fun a => vals.any (fun b => decide (a.ver ≠ b.ver))) then .error .type
  else .ok (skipSubsumed none (vals.mergeSort netLe))

/-- The splitting loop of `collapse_addresses`, ipaddress.py:322-344: addresses and single-address
networks go to `ips`, the others to `nets`; each list must be of one version. -/
def splitItems : List WItem → List Addr → List Net → Py (List Addr × List Net)
  | [], ips, nets => .ok (ips, nets)
  | .addr a :: t, ips, nets =>
    if (ips.getLast?.map (·.ver)).getD a.ver ≠ a.ver then .error .type
    else splitItems t (ips ++ [a]) nets
  | .net n :: t, ips, nets =>
    if n.plen = n.ver.width then
      if (ips.getLast?.map (·.ver)).getD n.ver ≠ n.ver then .error .type
      else splitItems t (ips ++ [n.networkAddress]) nets
    else
      if (nets.getLast?.map (·.ver)).getD n.ver ≠ n.ver then .error .type
      else splitItems t ips (nets ++ [n])

/-- `set(ips)`: one copy of each. -/
def dedup {α : Type} [DecidableEq α] : List α → List α
  | [] => []
  | a :: t => if a ∈ t then dedup t else a :: dedup t

/-- `_find_address_range`, ipaddress.py:164-181, after the first element has been taken. -/
def findRanges (first last : Nat) : List Nat → List (Nat × Nat)
  | [] => [(first, last)]
  | ip :: t =>
    if ip ≠ last + 1 then (first, last) :: findRanges ip ip t else findRanges first ip t

/-- `for first, last in …: addrs.extend(summarize_address_range(first, last))`, 350-352. -/
def summarizeAll (v : Ver) : List (Nat × Nat) → Py (List Net)
  | [] => .ok []
  | (a, b) :: t =>
    match summarizeRange ⟨v, a⟩ ⟨v, b⟩ with
    | .error e => .error e
    | .ok l =>
      match summarizeAll v t with
      | .error e => .error e
      | .ok m => .ok (l ++ m)

/-- The summarised `ips` of `collapse_addresses`, ipaddress.py:346-352. -/
def summarizeIps (ips : List Addr) : Py (List Net) :=
  match (dedup ips).mergeSort (fun a b => decide (a.ip ≤ b.ip)) with
  | [] => .ok []
  | a :: t => summarizeAll a.ver (findRanges a.ip a.ip (t.map (·.ip)))

/-- `collapse_addresses`, ipaddress.py:304-355. -/
def collapseAddresses (items : List WItem) : Py (List Net) :=
  match splitItems items [] [] with
  | .error e => .error e
  | .ok (ips, nets) =>
    match summarizeIps ips with
    | .error e => .error e
    | .ok addrs => collapseInternal (addrs ++ nets)

/-- `isinstance(o, (NetworkAny, NetworkAny4, NetworkAny6))`. -/
def Host.isAnyKind (h : Host) : Bool := h.isNetworkAny || h.isNetworkAny4 || h.isNetworkAny6

/-- The class dispatch at aclObjects.py:629-631; any other class raises KeyError. -/
def addressesOf : List Host → Py (List WItem)
  | [] => .ok []
  | .net n :: t =>
    match addressesOf t with
    | .error e => .error e
    | .ok l => .ok (.net n :: l)
  | .host a :: t =>
    match addressesOf t with
    | .error e => .error e
    | .ok l => .ok (.addr a :: l)
  | _ :: _ => .error .key

/-- The rebuilding loop, aclObjects.py:634-641: members are added one by one, an exception leaves
the ones added so far.  `Network(h.network_address, h.netmask)` formats the netmask as an address. -/
def rebuildLoop : List Net → List Host → List Host × Py Unit
  | [], acc => (acc, .ok ())
  | n :: t, acc =>
    if 2 ^ (n.ver.width - n.plen) > 1 then
      match mkNetwork n.networkAddress.text (Addr.text ⟨n.ver, n.netmask⟩) with
      | .error e => (acc, .error e)
      | .ok m => rebuildLoop t (acc ++ [.net m])
    else
      match ipAddress n.networkAddress.text with
      | .error e => (acc, .error e)
      | .ok a => rebuildLoop t (acc ++ [.host a])

/-- `NetworkGroup._collapse`, aclObjects.py:620-642: the members of the group afterwards and the
outcome of the call. -/
def collapseMembers (objs : List Host) : List Host × Py Unit :=
  let objs := if objs.any Host.isAnyKind then objs.filter (fun h => !h.isAnyKind) else objs
  match addressesOf objs with
  | .error e => (objs, .error e)
  | .ok items =>
    match collapseAddresses items with           -- self.objects.clear() came before this
    | .error e => ([], .error e)
    | .ok nets => rebuildLoop nets []

end Acltk
