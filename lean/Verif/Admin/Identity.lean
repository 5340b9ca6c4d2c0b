import Verif.Admin.Auth
import Verif.Net.SpuLemmas

/-!
# Whose permissions a connection has

`fluvio-sc/src/{cli.rs,start.rs,init.rs}`, `fluvio-auth/src/x509/{authenticator,identity,request}.rs`,
`fluvio-spu/src/start.rs`.

With TLS a proxy listens at the public address and passes on what clients send to the controller's service,
which listens without TLS at another address.  If scopes are configured, the proxy itself first sends a message
with the client's identity.  The TLS library and the proxy (`flv-tls-proxy`, not part of the repository) are
modelled by what they are documented to do: with client authentication only clients with a certificate of the
authority are let in; the authenticator is called before anything of the client is passed on, and if it fails the
connection is closed.
-/

namespace Verif.Admin.Identity
open Verif.Wire Verif.Net Verif.Net.Spu

/-! ## The message -/

/-- `AuthRequest` — x509/request.rs:14-18: principal and scopes -/
abbrev Claim := String × List String

def claimC : Codec Claim := pairC stringC (vecC stringC)

/-- `AUTH_REQUEST_API_KEY` — request.rs:11 -/
def authKey : BitVec 16 := 8

/-- The message of `send_authorization_request` — authenticator.rs:54-82, with a header made by
`RequestMessage::new_request` (fluvio-protocol/src/api/request.rs:69-74, api/mod.rs:107-120), without the length
in front of it.  The client id is `dummy`; any client can send such a message. -/
def claimBytes (c : Claim) : Bytes :=
  reqHeaderC.enc ⟨authKey, 0, 1, "dummy"⟩ ++ claimC.enc c

/-- `X509Identity::create_from_connection` — identity.rs:27-72, and `AuthorizationApiRequest::decode_with_header`
— request.rs:53-69: the claim in the first message; the connection ends with any other message. -/
def readClaim (bs : Bytes) : Option Claim :=
  match reqHeaderC.dec bs with
  | .error _ => none
  | .ok (h, rest) =>
    if h.apiKey = authKey then
      match claimC.dec rest with
      | .error _ => none
      | .ok (c, _) => some c
    else none

/-- The keys of the controller's public service, `AdminPublicApiKey` — fluvio-sc-schema/src/apis.rs:21-29. -/
def publicKeys : List (BitVec 16) := [18, 1001, 1002, 1003, 1004, 1005, 1006]

/-! ## The controller -/

/-- The options of the controller's command line that matter — cli.rs:33-67, 177-205.  Files are given by their
contents: the bindings of scopes, the policy; `none` inside is a file that cannot be read. -/
structure Opt where
  bindPublic : Option String
  tls : Bool
  serverCert : Bool
  serverKey : Bool
  clientCert : Bool
  caCert : Bool
  nonTls : Option String
  scopes : Option (Option (List (Text × List Text)))
  policy : Option (Option Policy)
  readOnly : Bool

/-- The proxy: its address, whether it asks for certificates, and the bindings of its authenticator. -/
structure Proxy where
  addr : String
  clientCert : Bool
  bindings : Option (List (Text × List Text))

/-- A running controller: the address of its service, the proxy, and what decides on permissions. -/
structure Server where
  service : String
  proxy : Option Proxy
  policy : Option Policy
  readOnly : Bool

/-- `ScConfig::default` — fluvio-sc/src/config/sc_config.rs:33-45 -/
def defaultPublic : String := "0.0.0.0:9003"

/-- `as_sc_config`, `try_build_tls_acceptor`, `proxy::start_if`, `start_proxy` — cli.rs:112-162, 207-240,
start.rs:152-185.  None: the process ends with an error or panics (authenticator.rs:43-48).  That addresses can be
bound is not modelled. -/
def startServer (o : Opt) : Option Server :=
  let pub := o.bindPublic.getD defaultPublic
  match o.policy with
  | some none => none
  | p =>
    let policy := p.bind id
    if o.tls then
      match o.nonTls with
      | none => none
      | some addr =>
        if ¬ (o.serverCert ∧ o.serverKey ∧ (o.clientCert → o.caCert)) then none
        else
          match o.scopes with
          | some none => none
          | some (some b) => some ⟨addr, some ⟨pub, o.clientCert, some b⟩, policy, o.readOnly⟩
          | none => some ⟨addr, some ⟨pub, o.clientCert, none⟩, policy, o.readOnly⟩
    else some ⟨pub, none, policy, o.readOnly⟩

/-- A client's certificate: was it issued by the authority, and the first common name of its subject if it is text
(authenticator.rs:108-126). -/
structure Cert where
  trusted : Bool
  name : Option String

/-- A client: the address it connects to, its certificate, and the first message it sends. -/
structure Client where
  addr : String
  cert : Option Cert
  first : Bytes

/-- `create_auth_context` at the beginning of `respond` — public_server.rs:60-69, with the authorization chosen in
init.rs:135-161 (`serverContext`): with a policy the first message is the claim, without one nothing is read. -/
def accept (s : Server) (first : Bytes) : Option AuthContext :=
  match s.policy with
  | some _ =>
    match readClaim first with
    | none => none
    | some c => some (serverContext s.policy s.readOnly (c.2.map String.toList))
  | none => some (serverContext none s.readOnly [])

/-- Does the service answer the message of the authenticator?  With a policy `create_from_connection` does; without
one the message is taken for a request of the public API, whose keys do not include the message's, and the
connection ends. -/
def answers (s : Server) (first : Bytes) : Bool :=
  match s.policy with
  | some _ => (readClaim first).isSome
  | none => decide (authKey ∈ publicKeys)

/-- The certificate the TLS library lets through: `none` if the handshake fails; without client authentication
none is asked for. -/
def handshake (p : Proxy) (c : Client) : Option (Option Cert) :=
  if p.clientCert then
    match c.cert with
    | some k => if k.trusted then some (some k) else none
    | none => none
  else some none

/-- `X509Authenticator::authenticate` — authenticator.rs:129-143: the claim made for a client, if it has a
certificate with a common name. -/
def claimFor (b : List (Text × List Text)) (k : Option Cert) : Option Claim :=
  match k with
  | none => none
  | some k => k.name.map fun n => (n, (scopesOf b n.toList).map String.ofList)

/-- A connection: the permissions it gets, or none if it is closed.  A listener is given by its address. -/
def connect (s : Server) (c : Client) : Option AuthContext :=
  if c.addr = s.service then accept s c.first
  else
    match s.proxy with
    | none => none
    | some p =>
      if c.addr ≠ p.addr then none
      else
        match handshake p c with
        | none => none
        | some k =>
          match p.bindings with
          | none => accept s c.first
          | some b =>
            match claimFor b k with
            | none => none
            | some claim => if answers s (claimBytes claim) then accept s (claimBytes claim) else none

/-! ## The broker -/

/-- The broker's public service — fluvio-spu/src/start.rs:66-93, 95-122: it always takes `RootAuthorization`, and
its proxy has no authenticator. -/
def brokerConnect (proxy : Option Proxy) (service : String) (c : Client) : Option AuthContext :=
  if c.addr = service then some rootContext
  else
    match proxy with
    | none => none
    | some p => if c.addr ≠ p.addr then none else (handshake p c).map fun _ => rootContext

/-! ## Lemmas -/

/-- Claims that fit: the lengths of texts are 16-bit numbers, that of the list a 32-bit number. -/
def claimFits (c : Claim) : Prop := short c.1 ∧ listFits short c.2

theorem claim_sends : Sends claimC (fun c => c) claimFits :=
  (Sends.string.pair Sends.string.vec).mono (fun _ h => h) fun c _ => by simp

theorem readClaim_claimBytes {c : Claim} (h : claimFits c) (rest : Bytes) :
    readClaim (claimBytes c ++ rest) = some c := by
  unfold readClaim claimBytes
  rw [List.append_assoc, header_sends.dec ⟨authKey, 0, 1, "dummy"⟩ (show short "dummy" by decide)]
  dsimp only
  rw [if_pos rfl, claim_sends.dec c h rest]

theorem readClaim_exact {c : Claim} (h : claimFits c) : readClaim (claimBytes c) = some c := by
  have := readClaim_claimBytes h []
  rwa [List.append_nil] at this

theorem toList_ofList (l : List Text) : (l.map String.ofList).map String.toList = l := by
  rw [List.map_map]
  induction l with
  | nil => rfl
  | cons a l ih => rw [List.map_cons, ih]; simp

theorem accept_claim {s : Server} {p : Policy} (hp : s.policy = some p) {c : Claim} (h : claimFits c) :
    accept s (claimBytes c) = some (basicContext p (c.2.map String.toList)) := by
  unfold accept
  rw [hp]
  dsimp only
  rw [readClaim_exact h]
  rfl

end Verif.Admin.Identity
