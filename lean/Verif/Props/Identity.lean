import Verif.Admin.Identity
import Verif.Props.Access
/-!
# C105: a connection to the controller has the permissions of its certificate

The model is in `Verif/Admin/Identity.lean`.
-/

namespace Verif.Props
open Verif.Wire Verif.Net Verif.Net.Spu
open Verif.Admin Verif.Admin.Identity

namespace C105

/-- **Specification.** The roles bound to a name: those of its line, none if it has no line. -/
def Bound (b : List (Text × List Text)) (name : String) (roles : List Text) : Prop :=
  (name.toList, roles) ∈ b ∨ (roles = [] ∧ ∀ e ∈ b, e.1 ≠ name.toList)

/-- **Specification.** The names and roles are shorter than 32 KiB, and there are fewer than 2³¹ of them. -/
def Small (b : List (Text × List Text)) : Prop :=
  ∀ e ∈ b, e.2.length < 2 ^ 31 ∧ ∀ r ∈ e.2, short (String.ofList r)

/-- **Specification.** The address at which clients are told to connect. -/
def publicAddr (o : Opt) : String := o.bindPublic.getD "0.0.0.0:9003"

/-- a controller with TLS, certificates of clients, scopes and a policy -/
def full : Opt where
  bindPublic := none
  tls := true
  serverCert := true
  serverKey := true
  clientCert := true
  caCert := true
  nonTls := some "0.0.0.0:9005"
  scopes := some (some [("alice".toList, ["reader".toList])])
  policy := some (some readerPolicy)
  readOnly := false

end C105
open C105

theorem bound_scopes {b : List (Text × List Text)} (hb : (b.map (·.1)).Nodup) (n : String) (roles : List Text) :
    Bound b n roles ↔ roles = scopesOf b n.toList := by
  unfold Bound scopesOf
  constructor
  · rintro (h | ⟨rfl, h⟩)
    · rw [get_eq_of_mem hb h]
    · have : Admin.get b n.toList = none := by
        unfold Admin.get
        rw [Option.map_eq_none_iff, List.find?_eq_none]
        intro e he
        rw [decide_eq_true_eq]
        exact h e he
      rw [this]
  · intro h
    cases hg : Admin.get b n.toList with
    | some r =>
      rw [hg] at h
      exact .inl (h ▸ get_some_mem hg)
    | none =>
      rw [hg] at h
      refine .inr ⟨h, fun e he => ?_⟩
      unfold Admin.get at hg
      rw [Option.map_eq_none_iff, List.find?_eq_none] at hg
      simpa using hg e he

/-- The message arrives as it was sent: the principal and its scopes, whatever follows. -/
theorem C105_wire (c : Claim) (h : claimFits c) (rest : Bytes) : readClaim (claimBytes c ++ rest) = some c :=
  readClaim_claimBytes h rest

example : claimFits ("alice", ["reader", "writer"]) := ⟨by decide, by decide, by decide⟩

theorem small_fits {b : List (Text × List Text)} (hb : Small b) {n : String} (hn : short n) :
    claimFits (n, (scopesOf b n.toList).map String.ofList) := by
  refine ⟨hn, ?_⟩
  unfold scopesOf
  cases hg : Admin.get b n.toList with
  | none => exact ⟨by simp, by simp⟩
  | some r =>
    obtain ⟨h1, h2⟩ := hb _ (get_some_mem hg)
    refine ⟨by simpa using h1, ?_⟩
    intro x hx
    obtain ⟨y, hy, rfl⟩ := List.mem_map.1 hx
    exact h2 y hy

/-- What the proxy gives a client. -/
theorem connect_proxy {o : Opt} {s : Server} (hs : startServer o = some s) (ht : o.tls = true)
    {b : List (Text × List Text)} (hsc : o.scopes = some (some b)) {c : Client}
    (ha : c.addr = publicAddr o) (hne : o.nonTls ≠ some c.addr) :
    s.policy = o.policy.bind id ∧ connect s c =
      (handshake ⟨publicAddr o, o.clientCert, some b⟩ c).bind fun k => (claimFor b k).bind fun claim =>
        if answers s (claimBytes claim) then accept s (claimBytes claim) else none := by
  unfold startServer at hs
  dsimp only at hs
  have key : ∀ pol : Option Policy, (some s = match o.nonTls with
      | none => none
      | some addr => if ¬ (o.serverCert ∧ o.serverKey ∧ (o.clientCert → o.caCert)) then none
        else some ⟨addr, some ⟨publicAddr o, o.clientCert, some b⟩, pol, o.readOnly⟩) →
      s.policy = pol ∧ connect s c =
      (handshake ⟨publicAddr o, o.clientCert, some b⟩ c).bind fun k => (claimFor b k).bind fun claim =>
        if answers s (claimBytes claim) then accept s (claimBytes claim) else none := by
    intro pol h
    cases hn : o.nonTls with
    | none => rw [hn] at h; cases h
    | some addr =>
      rw [hn] at h
      dsimp only at h
      split at h
      · cases h
      · injection h with h
        rw [h]
        refine ⟨rfl, ?_⟩
        unfold connect
        dsimp only
        rw [if_neg (fun he => hne (by rw [hn, he])), if_neg (fun h => h ha)]
        cases handshake ⟨publicAddr o, o.clientCert, some b⟩ c with
        | none => rfl
        | some k =>
          dsimp only [Option.bind]
          cases claimFor b k <;> rfl
  rw [ht, hsc] at hs
  cases hp : o.policy with
  | none => rw [hp] at hs; exact key _ hs.symm
  | some p =>
    cases p with
    | none => rw [hp] at hs; cases hs
    | some p => rw [hp] at hs; exact key _ hs.symm

/-- The permissions are those of the certificate: with TLS, certificates of clients, scopes and a policy, who
connects to the public address is let in exactly if they have a certificate of the authority with a name, and
their permissions are those which the policy gives to the roles bound to that name — whatever they send.

Missing: at the other address everybody chooses their roles themselves (`C105_violated_direct`); without scopes
they do so at the public address too (`C105_violated_no_scopes`); brokers do not ask who is there
(`C105_violated_broker`). -/
theorem C105_certificate_partial (o : Opt) (s : Server) (hs : startServer o = some s) (ht : o.tls = true)
    (hcc : o.clientCert = true) (b : List (Text × List Text)) (hsc : o.scopes = some (some b))
    (hb : (b.map (·.1)).Nodup) (hsm : Small b) (p : Policy) (hp : o.policy = some (some p)) (c : Client)
    (ha : c.addr = publicAddr o) (hne : o.nonTls ≠ some c.addr)
    (hn : ∀ k n, c.cert = some k → k.name = some n → short n) (ctx : AuthContext) :
    connect s c = some ctx ↔
      ∃ name roles, c.cert = some ⟨true, some name⟩ ∧ Bound b name roles ∧ ctx = basicContext p roles := by
  obtain ⟨h1, h2⟩ := connect_proxy hs ht hsc ha hne
  rw [h2, hp] at *
  replace h1 : s.policy = some p := h1
  unfold handshake
  rw [if_pos hcc]
  cases hk : c.cert with
  | none => simp
  | some k =>
    obtain ⟨tr, nm⟩ := k
    cases tr with
    | false => simp
    | true =>
      cases nm with
      | none => simp [claimFor]
      | some n =>
        have hf := small_fits hsm (hn _ n hk rfl)
        have hans : answers s (claimBytes (n, (scopesOf b n.toList).map String.ofList)) = true := by
          unfold answers
          rw [h1]
          dsimp only
          rw [readClaim_exact hf]
          rfl
        show (if answers s (claimBytes (n, (scopesOf b n.toList).map String.ofList)) then
          accept s (claimBytes (n, (scopesOf b n.toList).map String.ofList)) else none) = some ctx ↔ _
        rw [if_pos hans, accept_claim h1 hf]
        dsimp only
        rw [toList_ofList]
        constructor
        · intro h
          injection h with h
          exact ⟨n, _, rfl, (bound_scopes hb n _).2 rfl, h.symm⟩
        · rintro ⟨n', roles, he, hbd, rfl⟩
          injection he with he
          injection he with _ he
          injection he with he
          subst he
          rw [(bound_scopes hb n roles).1 hbd]

example : (startServer full).isSome = true ∧ ("0.0.0.0:9003" = publicAddr full) ∧
    full.nonTls ≠ some "0.0.0.0:9003" ∧ Small [("alice".toList, ["reader".toList])] := by
  refine ⟨rfl, rfl, by decide, ?_⟩
  intro e he
  simp at he
  subst he
  refine ⟨by decide, ?_⟩
  intro r hr
  simp at hr
  subst hr
  decide

/-- So a request which creates or lists anything but mirrors is carried out for a client at the public address
only if a role bound to the name in its certificate holds the permission. -/
theorem C105_permitted_partial {V : Type} [DecidableEq V] (env : Env V) (o : Opt) (s : Server)
    (hs : startServer o = some s) (ht : o.tls = true)
    (hcc : o.clientCert = true) (b : List (Text × List Text)) (hsc : o.scopes = some (some b))
    (hb : (b.map (·.1)).Nodup) (hsm : Small b) (p : Policy) (hp : o.policy = some (some p))
    (hw : WellFormedPolicy p) (c : Client)
    (ha : c.addr = publicAddr o) (hne : o.nonTls ≠ some c.addr)
    (hn : ∀ k n, c.cert = some k → k.name = some n → short n) (ctx : AuthContext) (hc : connect s c = some ctx)
    (cl : Cluster V) (reply : Reply) (req : Request V) (hr : typeRequest req = true)
    (hdone : CarriedOut (handle env ctx cl reply req)) :
    ∃ name roles, c.cert = some ⟨true, some name⟩ ∧ Bound b name roles ∧ Holds p roles (needs req) := by
  obtain ⟨name, roles, h1, h2, rfl⟩ :=
    (C105_certificate_partial o s hs ht hcc b hsc hb hsm p hp c ha hne hn ctx).1 hc
  exact ⟨name, roles, h1, h2, C67_permitted_partial env p hw o.readOnly roles cl reply req hr hdone⟩

/-- Without TLS for clients' certificates nobody gets past an authenticator: with scopes but without
certificates every connection to the public address is closed. -/
theorem C105_anonymous (o : Opt) (s : Server) (hs : startServer o = some s) (ht : o.tls = true)
    (hcc : o.clientCert = false) (b : List (Text × List Text)) (hsc : o.scopes = some (some b)) (c : Client)
    (ha : c.addr = publicAddr o) (hne : o.nonTls ≠ some c.addr) : connect s c = none := by
  rw [(connect_proxy hs ht hsc ha hne).2]
  unfold handshake
  rw [hcc]
  rfl

example : (startServer { full with clientCert := false }).isSome = true := rfl

/-- With scopes but without a policy every connection to the public address is closed, too: the service does not
know the message of the authenticator. -/
theorem C105_no_policy (o : Opt) (s : Server) (hs : startServer o = some s) (ht : o.tls = true)
    (b : List (Text × List Text)) (hsc : o.scopes = some (some b)) (hp : o.policy = none) (c : Client)
    (ha : c.addr = publicAddr o) (hne : o.nonTls ≠ some c.addr) : connect s c = none := by
  obtain ⟨h1, h2⟩ := connect_proxy hs ht hsc ha hne
  rw [hp] at h1
  rw [h2]
  cases handshake ⟨publicAddr o, o.clientCert, some b⟩ c with
  | none => rfl
  | some k =>
    dsimp only [Option.bind]
    cases claimFor b k with
    | none => rfl
    | some claim =>
      dsimp only
      rw [if_neg]
      unfold answers
      rw [h1]
      show ¬ decide (authKey ∈ publicKeys) = true
      decide

example : (startServer { full with policy := none }).isSome = true := rfl

/-- With a policy nobody gets permissions without a claim: at the service a first message that is a request of the
public API (its key is not that of the claim), or no message at all, closes the connection, and else the permissions
are those of the roles in the claim. -/
theorem C105_claimed (s : Server) (p : Policy) (hp : s.policy = some p) (c : Client) (ha : c.addr = s.service) :
    (∀ ctx, connect s c = some ctx → ∃ claim, readClaim c.first = some claim ∧
      ctx = basicContext p (claim.2.map String.toList)) ∧
    (c.first = [] → connect s c = none) ∧
    (∀ h rest, short h.clientId → h.apiKey ≠ 8 → c.first = reqHeaderC.enc h ++ rest → connect s c = none) := by
  have hc : connect s c = (readClaim c.first).map fun x => basicContext p (x.2.map String.toList) := by
    unfold connect
    rw [if_pos ha]
    unfold accept
    rw [hp]
    dsimp only
    cases readClaim c.first <;> rfl
  refine ⟨?_, ?_, ?_⟩
  · intro ctx h
    rw [hc] at h
    obtain ⟨x, h1, h2⟩ := Option.map_eq_some_iff.1 h
    exact ⟨x, h1, h2.symm⟩
  · intro h
    rw [hc, h]
    rfl
  · intro h rest hs hk he
    have : readClaim c.first = none := by
      unfold readClaim
      rw [he, header_sends.dec h hs rest]
      dsimp only
      rw [if_neg (show ¬ h.apiKey = authKey from hk)]
    rw [hc, this]
    rfl

/-- a request for the versions of the API, which clients send first -/
example : short "fluvio" ∧ (18 : BitVec 16) ≠ 8 := by decide

/-- **C105 violated: the address behind the proxy.**  The service listens without TLS at an address of its own
(cli.rs:139-162; `0.0.0.0:9005` in k8-util/helm/fluvio-app/templates/sc-deployment.yaml:49), and believes the claim in the first message: who
connects there, without any certificate, has whatever roles they name. -/
theorem C105_violated_direct (o : Opt) (s : Server) (hs : startServer o = some s) (ht : o.tls = true) (p : Policy)
    (hp : o.policy = some (some p)) (name : String) (roles : List String)
    (hf : claimFits (name, roles)) :
    ∃ addr, o.nonTls = some addr ∧
      connect s ⟨addr, none, claimBytes (name, roles)⟩ = some (basicContext p (roles.map String.toList)) := by
  unfold startServer at hs
  rw [ht, hp] at hs
  dsimp only at hs
  cases hn : o.nonTls with
  | none => rw [hn] at hs; cases hs
  | some addr =>
    rw [hn] at hs
    refine ⟨addr, rfl, ?_⟩
    have key : ∀ q, some ⟨addr, q, some p, o.readOnly⟩ = some s →
        connect s ⟨addr, none, claimBytes (name, roles)⟩ = some (basicContext p (roles.map String.toList)) := by
      intro q h
      injection h with h
      rw [← h]
      unfold connect
      rw [if_pos rfl]
      exact accept_claim rfl hf
    rw [if_pos rfl] at hs
    dsimp only at hs
    split at hs
    · cases hs
    · split at hs
      · cases hs
      · exact key _ hs
      · exact key _ hs

/-- **C105 violated: TLS without scopes.**  Without a file of scopes there is no authenticator (start.rs:165-172),
the first message comes from the client, and a client with a certificate of the authority — or, without
certificates of clients, anyone — has whatever roles they name. -/
theorem C105_violated_no_scopes (o : Opt) (s : Server) (hs : startServer o = some s) (ht : o.tls = true)
    (hsc : o.scopes = none) (p : Policy) (hp : o.policy = some (some p)) (hne : o.nonTls ≠ some (publicAddr o))
    (cert : Option Cert) (hcert : o.clientCert = true → ∃ n, cert = some ⟨true, n⟩)
    (name : String) (roles : List String) (hf : claimFits (name, roles)) :
    connect s ⟨publicAddr o, cert, claimBytes (name, roles)⟩ =
      some (basicContext p (roles.map String.toList)) := by
  unfold startServer at hs
  rw [ht, hp, hsc] at hs
  dsimp only at hs
  rw [if_pos rfl] at hs
  cases hn : o.nonTls with
  | none => rw [hn] at hs; cases hs
  | some addr =>
    rw [hn] at hs hne
    dsimp only at hs
    split at hs
    · cases hs
    · injection hs with hs
      rw [← hs]
      have hh : ∃ k, handshake ⟨publicAddr o, o.clientCert, none⟩
          ⟨publicAddr o, cert, claimBytes (name, roles)⟩ = some k := by
        unfold handshake
        dsimp only
        cases hcc : o.clientCert with
        | false => exact ⟨_, rfl⟩
        | true =>
          obtain ⟨n, rfl⟩ := hcert hcc
          exact ⟨_, rfl⟩
      obtain ⟨k, hk⟩ := hh
      unfold connect
      dsimp only
      rw [if_neg (fun he => hne (by rw [he])), if_neg (fun h => h rfl)]
      show (match handshake ⟨publicAddr o, o.clientCert, none⟩
          ⟨publicAddr o, cert, claimBytes (name, roles)⟩ with
        | none => none
        | some k => _) = _
      rw [hk]
      exact accept_claim rfl hf

example : (startServer { full with scopes := none }).isSome = true ∧
    full.nonTls ≠ some (publicAddr full) := ⟨rfl, by decide⟩

/-- **C105 violated: without TLS** a policy protects nothing: everybody names their roles. -/
theorem C105_violated_no_tls (o : Opt) (s : Server) (hs : startServer o = some s) (ht : o.tls = false) (p : Policy)
    (hp : o.policy = some (some p)) (name : String) (roles : List String) (hf : claimFits (name, roles)) :
    connect s ⟨publicAddr o, none, claimBytes (name, roles)⟩ =
      some (basicContext p (roles.map String.toList)) := by
  unfold startServer at hs
  rw [ht, hp] at hs
  dsimp only at hs
  rw [if_neg (by decide)] at hs
  injection hs with hs
  rw [← hs]
  unfold connect
  rw [if_pos (show publicAddr o = o.bindPublic.getD defaultPublic from rfl)]
  exact accept_claim rfl hf

example : (startServer { full with tls := false }).isSome = true := rfl

/-- What that means: a client without certificate lists the topics of a controller with TLS, certificates, scopes
and a policy, none of which gives them anything. -/
theorem C105_violated_example :
    ∃ s, startServer full = some s ∧ ∃ ctx, connect s ⟨"0.0.0.0:9005", none, claimBytes ("x", ["reader"])⟩ = some ctx ∧
      CarriedOut (handle lenientEnv ctx smallCluster anyReply (.list .topic [] false)) := by
  obtain ⟨s, hs⟩ := Option.isSome_iff_exists.1 (show (startServer full).isSome = true from rfl)
  obtain ⟨addr, h1, h2⟩ := C105_violated_direct full s hs rfl readerPolicy rfl "x" ["reader"]
    ⟨by decide, by decide, by decide⟩
  injection h1 with h1
  rw [← h1] at h2
  exact ⟨s, hs, _, h2, .inr (.inl ⟨.topic, "orders".toList, [], by decide⟩)⟩

/-- **C105 violated: brokers.**  A broker gives whoever reaches it all permissions; with TLS it asks for a
certificate at most (fluvio-spu/src/start.rs:75-80, 111-113, "TODO: add X509Authenticator"), so that names, scopes and
policy do not matter for producing and consuming. -/
theorem C105_violated_broker (proxy : Option Proxy) (service : String) (c : Client) (ctx : AuthContext)
    (h : brokerConnect proxy service c = some ctx) : ctx = rootContext := by
  unfold brokerConnect at h
  split at h
  · injection h with h; exact h.symm
  · split at h
    · cases h
    · split at h
      · cases h
      · obtain ⟨_, _, h⟩ := Option.map_eq_some_iff.1 h
        exact h.symm

/-- a client whose certificate has no name, and one without any at the address without TLS -/
example : (brokerConnect (some ⟨"0.0.0.0:9005", true, none⟩) "0.0.0.0:9007" ⟨"0.0.0.0:9005", some ⟨true, none⟩, []⟩).isSome
      = true ∧
    (brokerConnect (some ⟨"0.0.0.0:9005", true, none⟩) "0.0.0.0:9007" ⟨"0.0.0.0:9007", none, []⟩).isSome = true :=
  ⟨rfl, rfl⟩

end Verif.Props
