import Verif.Sc.AddressesInv
import Verif.Props.SpuGroups

/-!
# C97 The address of a broker on Kubernetes leads to that broker

Every broker of a group gets a service of its own, and the controller registers the address of that service as the
public address of the broker.  A client that connects to the address reaches the pod of that broker and no other.
-/

namespace Verif.Props

open Verif.Misc Verif.Sc.Addresses
open Verif.Sc.Groups hiding Ev run step init

/-- Specification (Kubernetes): a connection to `host:port` ends in a pod.  Inside the cluster, services are known
under their name; every node forwards the ports of services of type `NodePort`; a load balancer forwards the port of its
service. -/
inductive C97_Leads (ns : Name) (isNode : Name → Prop) (S : Services) : Name → Nat → Name → Prop
  | dns (n : Name) (s : Service) (h : (n, s) ∈ S) :
    C97_Leads ns isNode S (n ++ '.' :: ns ++ ".svc.cluster.local".toList) s.spec.port s.spec.selector
  | node (host n : Name) (s : Service) (p : Nat) (hh : isNode host) (h : (n, s) ∈ S) (hp : s.spec.nodePort = some p) :
    C97_Leads ns isNode S host p s.spec.selector
  | balancer (host n : Name) (s : Service) (a : Addr) (h : (n, s) ∈ S) (ha : a ∈ s.ingress) (hh : a.host = some host) :
    C97_Leads ns isNode S host s.spec.port s.spec.selector

/-- Specification (Kubernetes): names of services, addresses of nodes and addresses of load balancers are different. -/
structure C97_Apart (ns : Name) (isNode : Name → Prop) (S : Services) : Prop where
  node_dns : ∀ n, ¬ isNode (n ++ '.' :: ns ++ ".svc.cluster.local".toList)
  node_balancer : ∀ e ∈ S, ∀ a ∈ e.2.ingress, ∀ h, a.host = some h → ¬ isNode h
  balancer_dns : ∀ e ∈ S, ∀ a ∈ e.2.ingress, ∀ n, a.host ≠ some (n ++ '.' :: ns ++ ".svc.cluster.local".toList)

/-- The pod that a service of a broker selects is the pod of that broker (`C80_pod`). -/
theorem C97.pod_eq (g : Name) (i : Nat) : "fluvio-spg-".toList ++ spuName g i = C80_pod g i := by
  unfold spuName C80_pod setName
  rw [List.append_assoc]

/-- Inside the cluster the registered local address of a broker leads to its pod and to no other, once it has its
service. -/
theorem C97_local (es : List Ev) (ns : Name) (isNode : Name → Prop) (g : Name) (i : Nat)
    (hs : (get (run [] es) (serviceName (spuName g i))).isSome) (ha : C97_Apart ns isNode (run [] es)) (pod : Name) :
    C97_Leads ns isNode (run [] es) (localHost ns (spuName g i)) publicPort pod ↔ pod = C80_pod g i := by
  have hinv : Inv (run [] es) := inv_nil.run es
  generalize run [] es = S at *
  obtain ⟨s, hs⟩ := Option.isSome_iff_exists.mp hs
  have hm := get_mem hs
  have hl := hinv.named _ hm (by unfold serviceName; simp)
  obtain ⟨m, hl⟩ := Option.isSome_iff_exists.mp hl
  obtain ⟨h1, h2, h3⟩ := hinv.brokers _ hm m hl
  have h1 := serviceName_inj h1
  subst h1
  rw [C97.pod_eq] at h2
  have hh : localHost ns (spuName g i) = serviceName (spuName g i) ++ '.' :: ns ++ ".svc.cluster.local".toList := rfl
  constructor
  · intro h
    generalize hx : localHost ns (spuName g i) = host at h
    generalize hy : publicPort = port at h
    cases h with
    | dns n s' h' =>
      rw [hh] at hx
      have hx := List.append_cancel_right hx
      have hx : serviceName (spuName g i) = n := by
        rw [show serviceName (spuName g i) ++ '.' :: ns = serviceName (spuName g i) ++ ('.' :: ns) from rfl] at hx
        exact List.append_cancel_right hx
      have := nodup_eq S hinv.nodup (n, s') (_, s) h' hm hx.symm
      injection this with _ this
      rw [this]
      exact h2
    | node _ n s' p hn =>
      rw [← hx, hh] at hn
      exact absurd hn (ha.node_dns _)
    | balancer _ n s' a h' ha' hh' =>
      rw [← hx, hh] at hh'
      exact absurd hh' (ha.balancer_dns _ h' a ha' _)
  · rintro rfl
    rw [hh, ← h2, ← h3]
    exact .dns _ s hm

/-- **C97.**  Whatever services were applied, created, deleted and given addresses: if the public address that the
controller registers for a broker names a host, the address leads to the pod of the broker and to no other — for a
service of type `NodePort` if the host is one of the nodes, for the other types if the load balancer has an address. -/
theorem C97_public_partial (es : List Ev) (ipText : Name → Option Name) (ns : Name) (isNode : Name → Prop) (g : Name)
    (i : Nat) (hh : (endpoint ipText (run [] es) (spuName g i)).host ≠ [])
    (hn : ∀ s, get (run [] es) (serviceName (spuName g i)) = some s →
      if s.spec.kind = some .nodePort then isNode (endpoint ipText (run [] es) (spuName g i)).host else s.ingress ≠ [])
    (ha : C97_Apart ns isNode (run [] es)) (pod : Name) :
    C97_Leads ns isNode (run [] es) (endpoint ipText (run [] es) (spuName g i)).host
      (endpoint ipText (run [] es) (spuName g i)).port pod ↔ pod = C80_pod g i := by
  have hinv : Inv (run [] es) := inv_nil.run es
  generalize run [] es = S at *
  cases hg : get (spuServices ipText S) (spuName g i) with
  | none =>
    exfalso
    unfold endpoint at hh
    rw [hg] at hh
    exact hh rfl
  | some ip =>
    have he : endpoint ipText S (spuName g i) = ip := by unfold endpoint; rw [hg]
    rw [he] at hh hn ⊢
    obtain ⟨⟨sn, s⟩, hm, hl, hi⟩ := spuServices_some hg
    obtain ⟨h1, h2, h3⟩ := hinv.brokers _ hm _ hl
    dsimp only at h1 h2 h3 hl hi
    subst h1
    rw [C97.pod_eq] at h2
    have hs : get S (serviceName (spuName g i)) = some s := by
      cases hx : get S (serviceName (spuName g i)) with
      | none => exact absurd rfl (get_none hx _ hm)
      | some s' =>
        have := nodup_eq S hinv.nodup (_, s') (_, s) (get_mem hx) hm rfl
        injection this with _ this
        rw [this]
    have hn := hn s hs
    unfold getIngress at hi
    by_cases hk : s.spec.kind = some .nodePort
    · rw [if_pos hk] at hn
      rw [hk] at hi
      dsimp only at hi
      obtain ⟨p, hp, hi⟩ := Option.map_eq_some_iff.mp hi
      have hport : ip.port = p := by rw [← hi]
      rw [hport]
      constructor
      · intro h
        generalize hx : ip.host = host at h hn
        cases h with
        | dns n s' h' => exact absurd hn (ha.node_dns _)
        | node _ n s' p hn' h' hp' =>
          have := hinv.ports _ h' _ hm _ hp' hp
          have := nodup_eq S hinv.nodup _ _ h' hm this
          injection this with _ this
          rw [this]
          exact h2
        | balancer _ n s' a h' ha' hh' => exact absurd hn (ha.node_balancer _ h' a ha' _ hh')
      · rintro rfl
        rw [← h2]
        exact .node _ _ s p hn hm hp
    · rw [if_neg hk] at hn
      have hi : some (⟨s.spec.port, s.ingress ++ annotated ipText s⟩ : Ingress) = some ip := by
        split at hi
        · rename_i h; exact absurd h hk
        · exact hi
      injection hi with hi
      cases hl' : s.ingress with
      | nil => exact absurd hl' hn
      | cons a l =>
        have hhost : ip.host = a.host.getD [] := by
          rw [← hi]
          unfold Ingress.host
          dsimp only
          rw [hl']
          rfl
        have ham : a ∈ s.ingress := by rw [hl']; exact List.mem_cons_self
        have hah : a.host = some ip.host := by
          cases hx : a.host with
          | none =>
            rw [hx] at hhost
            exact absurd hhost hh
          | some h => rw [hhost, hx]; rfl
        have hport : ip.port = s.spec.port := by rw [← hi]
        rw [hport]
        constructor
        · intro h
          generalize hx : ip.host = host at h hah
          generalize hy : s.spec.port = port at h
          cases h with
          | dns n s' h' => exact absurd hah (ha.balancer_dns _ hm a ham _)
          | node _ n s' p hn' h' hp' => exact absurd hn' (ha.node_balancer _ hm a ham _ hah)
          | balancer _ n s' a' h' ha' hh' =>
            have := hinv.addrs _ h' _ hm a' ha' a ham (by rw [hh', hah])
            have := nodup_eq S hinv.nodup _ _ h' hm this
            injection this with _ this
            rw [this]
            exact h2
        · rintro rfl
          rw [← h2]
          exact .balancer _ _ s a hm ham hah

/-- The process in the pod reached is the broker with the id the controller has registered for that name. -/
theorem C97_id (es : List Ev) (ipText : Name → Option Name) (ns : Name) (isNode : Name → Prop) (name : Name) (g : Group)
    (i : Nat) (hm : IsI32 g.minId) (hi : i < 2 ^ 16) (hh : (endpoint ipText (run [] es) (spuName name i)).host ≠ [])
    (hn : ∀ s, get (run [] es) (serviceName (spuName name i)) = some s →
      if s.spec.kind = some .nodePort then isNode (endpoint ipText (run [] es) (spuName name i)).host else s.ingress ≠ [])
    (ha : C97_Apart ns isNode (run [] es)) (pod : Name)
    (h : C97_Leads ns isNode (run [] es) (endpoint ipText (run [] es) (spuName name i)).host
      (endpoint ipText (run [] es) (spuName name i)).port pod) :
    podId pod (showInt g.minId) = some (asSpu ns name g i).2.id := by
  rw [(C97_public_partial es ipText ns isNode name i hh hn ha pod).mp h]
  exact C80_pod_id ns name g i hm hi

/-- When the controller comes to the end of a pass, every broker of every group has its service, of the type in the
configuration and with its annotation, and the address the controller of brokers computes has the port of that
service. -/
theorem C97_served (es : List Ev) (cfg : Config) (choice : Name → Nat) (groups : List (Name × Nat)) (S' : Services)
    (h : updateServices cfg choice (run [] es) (brokers groups) = (S', true)) (ipText : Name → Option Name) (g : Name)
    (r i : Nat) (hg : (g, r) ∈ groups) (hi : i < r) :
    ∃ s, get S' (serviceName (spuName g i)) = some s ∧ s.spec.selector = C80_pod g i ∧ s.address = cfg.address ∧
      (∀ t k, cfg.template = some t → t.kind = some k → s.spec.kind = some k) ∧
      (if s.spec.kind = some .nodePort then s.spec.nodePort = some (endpoint ipText S' (spuName g i)).port
        else (endpoint ipText S' (spuName g i)).port = publicPort) ∧
      (∀ t b, cfg.template = some t → t.kind = some .nodePort → cfg.base = some b → b + i < 2 ^ 16 →
        s.spec.nodePort = some (b + i)) := by
  obtain ⟨h1, h2⟩ := updateServices_served (brokers groups) h
  have hinv := h2 (inv_nil.run es)
  have hmem : (g, i) ∈ brokers groups :=
    List.mem_flatMap.mpr ⟨(g, r), hg, List.mem_map.mpr ⟨i, List.mem_range.mpr hi, rfl⟩⟩
  obtain ⟨s, hs, hl, haddr, hk, hp, hq⟩ := h1 g i (.inl hmem)
  have hm := get_mem hs
  obtain ⟨_, hsel, hport⟩ := hinv.brokers _ hm _ hl
  dsimp only at hsel hport
  refine ⟨s, hs, by rw [hsel, C97.pod_eq], haddr, ?_, ?_, ?_⟩
  · intro t k ht htk
    rw [hk]
    unfold service applyService
    rw [ht]
    dsimp only
    rw [htk]
  · split
    · rename_i hkind
      obtain ⟨p, hp⟩ := hp hkind
      have : getIngress ipText s = some ⟨p, annotated ipText s⟩ := by
        unfold getIngress; rw [hkind, hp]; rfl
      rw [endpoint, spuServices_get hinv hm hl this, hp]
    · rename_i hkind
      have : getIngress ipText s = some ⟨s.spec.port, s.ingress ++ annotated ipText s⟩ := by
        unfold getIngress
        split
        · rename_i h; exact absurd h hkind
        · rfl
      rw [endpoint, spuServices_get hinv hm hl this]
      exact hport
  · intro t b ht htk hb hlt
    apply hq
    unfold service applyService
    rw [ht]
    dsimp only
    rw [htk, hb]
    dsimp only
    rw [Nat.mod_eq_of_lt hlt]

/-- Once its load balancer has an address, the public address of a broker has that host: the host name, or the IP address
if there is no name; and with a service of type `NodePort` it is the one in the annotation. -/
theorem C97_named (es : List Ev) (ipText : Name → Option Name) (g : Name) (i : Nat) (s : Service)
    (hs : get (run [] es) (serviceName (spuName g i)) = some s) :
    (∀ h ip rest, s.spec.kind ≠ some .nodePort → s.ingress = ⟨some h, ip⟩ :: rest →
      (endpoint ipText (run [] es) (spuName g i)).host = h) ∧
    (∀ ip rest, s.spec.kind ≠ some .nodePort → s.ingress = ⟨none, some ip⟩ :: rest →
      (endpoint ipText (run [] es) (spuName g i)).host = ip) ∧
    (∀ a p, s.spec.kind = some .nodePort → s.spec.nodePort = some p → s.address = some a →
      (endpoint ipText (run [] es) (spuName g i)).host = (ipText a).getD a) := by
  have hinv : Inv (run [] es) := inv_nil.run es
  generalize run [] es = S at *
  have hm := get_mem hs
  have hpre : "fluvio-spu-".toList.isPrefixOf (serviceName (spuName g i)) = true := by
    rw [List.isPrefixOf_iff_prefix]; exact List.prefix_append _ _
  obtain ⟨n, hl⟩ := Option.isSome_iff_exists.mp (hinv.named _ hm hpre)
  dsimp only at hl
  have hn : spuName g i = n := serviceName_inj (hinv.brokers _ hm _ hl).1
  subst hn
  have hb : s.spec.kind ≠ some .nodePort → getIngress ipText s = some ⟨s.spec.port, s.ingress ++ annotated ipText s⟩ := by
    intro hk
    unfold getIngress
    split
    · rename_i h; exact absurd h hk
    · rfl
  refine ⟨fun h ip rest hk hi => ?_, fun ip rest hk hi => ?_, fun a p hk hp ha => ?_⟩
  · rw [endpoint, spuServices_get hinv hm hl (hb hk), hi]; rfl
  · rw [endpoint, spuServices_get hinv hm hl (hb hk), hi]; rfl
  · have hg : getIngress ipText s = some ⟨p, annotated ipText s⟩ := by
      unfold getIngress; rw [hk, hp]; rfl
    rw [endpoint, spuServices_get hinv hm hl hg]
    unfold annotated
    rw [ha]
    dsimp only
    cases ipText a <;> rfl

/-- A pass comes to its end if services are not of type `NodePort`. -/
theorem C97_ends_partial (es : List Ev) (cfg : Config) (choice : Name → Nat) (groups : List (Name × Nat))
    (hk : ∀ t, cfg.template = some t → t.kind ≠ some .nodePort) :
    (updateServices cfg choice (run [] es) (brokers groups)).2 = true := by
  have hz : ∀ spu i, (service cfg spu i).spec.kind ≠ some .nodePort ∧ (service cfg spu i).spec.nodePort = none := by
    intro spu i
    unfold service applyService
    cases ht : cfg.template with
    | none => simp
    | some t =>
      have := hk t ht
      dsimp only
      cases htk : t.kind with
      | none => simp
      | some k => cases k <;> simp_all
  exact updateServices_ends _ _ (fun g i _ hn => absurd hn (hz _ _).1) (fun spu i _ => (hz spu i).2)

/-- With ports on the nodes it comes to its end if there is one group and nobody else uses its ports. -/
theorem C97_ends_one_group (es : List Ev) (cfg : Config) (t : Template) (b : Nat) (ht : cfg.template = some t)
    (hk : t.kind = some .nodePort) (hb : cfg.base = some b) (choice : Name → Nat) (g : Name) (r : Nat)
    (hr : b + r ≤ 2 ^ 16)
    (hf : ∀ e ∈ run [] es, ∀ i, i < r → e.2.spec.nodePort = some (b + i) → e.1 = serviceName (spuName g i)) :
    (updateServices cfg choice (run [] es) (brokers [(g, r)])).2 = true := by
  have hport : ∀ spu i, (service cfg spu i).spec.nodePort = some ((b + i) % 2 ^ 16) := by
    intro spu i
    unfold service applyService
    rw [ht]
    dsimp only
    rw [hk, hb]
  have hkind : ∀ spu i, (service cfg spu i).spec.kind = some .nodePort := by
    intro spu i
    unfold service applyService
    rw [ht]
    dsimp only
    rw [hk]
  have hmem : ∀ g' i', (g', i') ∈ brokers [(g, r)] → g' = g ∧ i' < r := by
    intro g' i' hm
    simp only [brokers, List.flatMap_cons, List.flatMap_nil, List.append_nil, List.mem_map, List.mem_range,
      Prod.mk.injEq] at hm
    obtain ⟨x, hx, rfl, rfl⟩ := hm
    exact ⟨rfl, hx⟩
  refine updateServices_ends _ _ (fun g1 i1 hm _ => ?_) (fun spu i hn => absurd (hkind spu i) hn)
  obtain ⟨rfl, hi⟩ := hmem g1 i1 hm
  refine ⟨b + i1, by rw [hport, Nat.mod_eq_of_lt (by omega)], fun e he hx => hf e he i1 hi hx, ?_⟩
  intro g2 i2 hm2 hp2
  obtain ⟨rfl, hi2⟩ := hmem g2 i2 hm2
  rw [hport, Nat.mod_eq_of_lt (by omega)] at hp2
  injection hp2 with hp2
  exact ⟨rfl, by omega⟩

/-- Violation: with a base port for the nodes, brokers with the same index in two groups are to have the same port
(`node_port + replica`, spu_k8_config.rs:122).  Kubernetes refuses the second one, so the controller never comes to the
end of a pass, whatever the state and however often it tries; the brokers after that one get no services. -/
theorem C97_violated_two_groups (es : List Ev) (cfg : Config) (t : Template) (b : Nat) (ht : cfg.template = some t)
    (hk : t.kind = some .nodePort) (hb : cfg.base = some b) (choice : Name → Nat) (groups : List (Name × Nat))
    (g g' : Name) (r r' : Nat) (hg : (g, r + 1) ∈ groups) (hg' : (g', r' + 1) ∈ groups) (hne : g ≠ g') :
    (updateServices cfg choice (run [] es) (brokers groups)).2 = false := by
  cases hx : updateServices cfg choice (run [] es) (brokers groups) with
  | mk S' ok =>
    cases ok with
    | false => rfl
    | true =>
      exfalso
      obtain ⟨h1, h2⟩ := updateServices_served (brokers groups) hx
      have hinv := h2 (inv_nil.run es)
      have hmem : ∀ (a : Name) (n : Nat), (a, n + 1) ∈ groups → (a, 0) ∈ brokers groups := fun a n ha =>
        List.mem_flatMap.mpr ⟨(a, n + 1), ha, List.mem_map.mpr ⟨0, List.mem_range.mpr (by omega), rfl⟩⟩
      have hport : ∀ spu, (service cfg spu 0).spec.nodePort = some ((b + 0) % 2 ^ 16) := by
        intro spu
        unfold service applyService
        rw [ht]
        dsimp only
        rw [hk, hb]
      obtain ⟨s, hs, _, _, _, _, hp⟩ := h1 g 0 (.inl (hmem g r hg))
      obtain ⟨s', hs', _, _, _, _, hp'⟩ := h1 g' 0 (.inl (hmem g' r' hg'))
      have := hinv.ports _ (get_mem hs) _ (get_mem hs') _ (hp _ (hport _)) (hp' _ (hport _))
      exact hne (spuName_inj (serviceName_inj this)).1

/-- Violation: the annotation is the same for all services (spu_service.rs:202-204), and so is the port unless they are
of type `NodePort`.  While the load balancers of two brokers have no addresses of their own, both brokers are registered
under one and the same address, so for one of them it leads elsewhere, whatever it leads to. -/
theorem C97_violated_shared_address (es : List Ev) (ipText : Name → Option Name) (g g' : Name) (i i' : Nat)
    (hne : (g, i) ≠ (g', i')) (s s' : Service) (hs : get (run [] es) (serviceName (spuName g i)) = some s)
    (hs' : get (run [] es) (serviceName (spuName g' i')) = some s') (hk : s.spec.kind ≠ some .nodePort)
    (hk' : s'.spec.kind ≠ some .nodePort) (hl : s.ingress = []) (hl' : s'.ingress = []) (ha : s.address = s'.address)
    (leads : Name → Nat → Name) :
    ¬ (leads (endpoint ipText (run [] es) (spuName g i)).host (endpoint ipText (run [] es) (spuName g i)).port
          = C80_pod g i ∧
        leads (endpoint ipText (run [] es) (spuName g' i')).host (endpoint ipText (run [] es) (spuName g' i')).port
          = C80_pod g' i') := by
  have hinv : Inv (run [] es) := inv_nil.run es
  have key : ∀ (g : Name) (i : Nat) (s : Service), get (run [] es) (serviceName (spuName g i)) = some s →
      s.spec.kind ≠ some .nodePort → s.ingress = [] →
      endpoint ipText (run [] es) (spuName g i) = ⟨publicPort, annotated ipText s⟩ := by
    intro g i s hs hk hl
    have hm := get_mem hs
    have hlab := hinv.named _ hm (by unfold serviceName; simp)
    obtain ⟨m, hlab⟩ := Option.isSome_iff_exists.mp hlab
    obtain ⟨h1, h2, h3⟩ := hinv.brokers _ hm m hlab
    have h1 := serviceName_inj h1
    subst h1
    have : getIngress ipText s = some ⟨s.spec.port, s.ingress ++ annotated ipText s⟩ := by
      unfold getIngress
      split
      · rename_i h; exact absurd h hk
      · rfl
    rw [endpoint, spuServices_get hinv hm hlab this, hl]
    dsimp only at h3 ⊢
    rw [h3]
    rfl
  have he : endpoint ipText (run [] es) (spuName g i) = endpoint ipText (run [] es) (spuName g' i') := by
    rw [key g i s hs hk hl, key g' i' s' hs' hk' hl', annotated, annotated, ha]
  rintro ⟨h1, h2⟩
  rw [he, h2] at h1
  have h1 : spuName g' i' = spuName g i := by
    have : "fluvio-spg-".toList ++ spuName g' i' = "fluvio-spg-".toList ++ spuName g i := by
      rw [C97.pod_eq, C97.pod_eq]; exact h1
    exact List.append_cancel_left this
  obtain ⟨rfl, rfl⟩ := spuName_inj h1
  exact hne rfl

/-- Violation: without the annotation the public address of a broker with a service of type `NodePort` has no host
(`":30004"`), whatever addresses the service has (spu_controller.rs:217-225 drops them). -/
theorem C97_violated_no_host (ipText : Name → Option Name) (s : Service) (hk : s.spec.kind = some .nodePort)
    (ha : s.address = none) (ip : Ingress) (h : getIngress ipText s = some ip) : ip.host = [] := by
  unfold getIngress at h
  rw [hk] at h
  dsimp only at h
  obtain ⟨p, _, rfl⟩ := Option.map_eq_some_iff.mp h
  unfold annotated
  rw [ha]
  rfl

/-- Violation: the address wanted for load balancers in the configuration is ignored: `apply_service` looks for it in the
new service, where there is none (spu_k8_config.rs:131-133). -/
theorem C97_violated_balancer_ip (cfg : Config) (spu : Name) (i : Nat) : (service cfg spu i).spec.lbIp = none := by
  unfold service applyService
  split <;> rfl

/-! ## The hypotheses can be met -/

/-- Two brokers with ports on the nodes and another service. -/
def C97.cfg : Config := ⟨some ⟨some .nodePort, none⟩, some 30004, some "node".toList⟩

def C97.es : List Ev :=
  [.serve C97.cfg "main".toList 0 0, .foreign "web".toList ⟨"web-0".toList, some .nodePort, 80, none, none⟩ 30005,
    .serve C97.cfg "main".toList 1 0, .remove "web".toList, .serve C97.cfg "main".toList 1 0]

example : (endpoint (fun _ => none) (run [] C97.es) "main-1".toList) = ⟨30005, [⟨some "node".toList, none⟩]⟩ := by
  decide +kernel

example : C97_Apart "default".toList (fun h => h = "node".toList) (run [] C97.es) := by
  have hi : ∀ e ∈ run [] C97.es, e.2.ingress = [] := by decide +kernel
  refine ⟨fun n h => ?_, fun e he a ha => ?_, fun e he a ha => ?_⟩
  · have := congrArg List.length h
    simp at this
  · rw [hi e he] at ha; cases ha
  · rw [hi e he] at ha; cases ha

/-- Load balancers with addresses. -/
example : (endpoint (fun _ => none)
    (run [] [.serve ⟨some ⟨some .loadBalancer, none⟩, none, none⟩ "a".toList 0 0,
      .assign "fluvio-spu-a-0".toList [⟨none, some "10.0.0.1".toList⟩]]) "a-0".toList) =
    ⟨9005, [⟨none, some "10.0.0.1".toList⟩]⟩ := by
  decide +kernel

example : (endpoint (fun _ => none)
    (run [] [.serve ⟨some ⟨some .loadBalancer, none⟩, none, none⟩ "a".toList 0 0,
      .assign "fluvio-spu-a-0".toList [⟨some "lb".toList, none⟩]]) "a-0".toList).host = "lb".toList := by
  decide +kernel

/-- A pass over one group that ends, and one over two groups that does not: the second broker of the first group and all
of the second group are left without services. -/
example : ((updateServices C97.cfg (fun _ => 0) [] (brokers [("a".toList, 2)])).2 = true) ∧
    (((updateServices C97.cfg (fun _ => 0) [] (brokers [("a".toList, 1), ("b".toList, 1), ("c".toList, 1)])).1.map (·.1))
      = ["fluvio-spu-a-0".toList]) := by
  decide +kernel

/-- Two load balancers without addresses. -/
example : let S := run [] [.serve ⟨some ⟨some .loadBalancer, none⟩, none, some "proxy".toList⟩ "a".toList 0 0,
      .serve ⟨some ⟨some .loadBalancer, none⟩, none, some "proxy".toList⟩ "a".toList 1 0]
    (endpoint (fun _ => none) S "a-0".toList) = (endpoint (fun _ => none) S "a-1".toList) := by
  decide +kernel

end Verif.Props
