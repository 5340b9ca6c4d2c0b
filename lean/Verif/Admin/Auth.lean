/-!
# Who may do what on the controller's public API

`fluvio-auth/src/{policy.rs,root.rs}`, `fluvio-auth/src/x509/authenticator.rs`,
`fluvio-sc/src/services/auth/{mod.rs,basic.rs}`, `fluvio-sc/src/init.rs`.

A string is the list of its characters.  A `HashMap` is the association list of its entries; looking up
takes the first entry, so a list with repeated keys stands for the map of the first ones.
-/

namespace Verif.Admin

abbrev Text := List Char

/-- look-up in a map (`HashMap::get`) -/
def get {κ α : Type} [DecidableEq κ] (m : List (κ × α)) (k : κ) : Option α :=
  (m.find? (fun e => e.1 = k)).map (·.2)

/-- `ObjectType` — fluvio-controlplane-metadata/src/lib.rs:31-42 -/
inductive ObjectType where
  | spu | customSpu | spuGroup | topic | partition | managedConnector | smartModule | tableFormat
  | derivedStream | mirror
deriving DecidableEq, Repr

/-- `TypeAction` — fluvio-auth/src/policy.rs:11-15 -/
inductive TypeAction where
  | create | read
deriving DecidableEq, Repr

/-- `InstanceAction` — fluvio-auth/src/policy.rs:17-20 -/
inductive InstanceAction where
  | delete | update
deriving DecidableEq, Repr

/-- `Action` — basic.rs:146-153 -/
inductive Action where
  | create | read | update | delete | all
deriving DecidableEq, Repr

/-- `From<TypeAction> for Action` — basic.rs:155-162 -/
def TypeAction.toAction : TypeAction → Action
  | .create => .create
  | .read => .read

/-- `From<InstanceAction> for Action` — basic.rs:164-171 -/
def InstanceAction.toAction : InstanceAction → Action
  | .delete => .delete
  | .update => .update

/-- `ActionUrn` — basic.rs:94-98 -/
structure ActionUrn where
  action : Action
  instance? : Option Text
deriving DecidableEq, Repr

/-- `str::contains` for a string pattern: the pattern occurs somewhere in the text -/
def contains : Text → Text → Bool
  | [], i => i.isEmpty
  | c :: t, i => i.isPrefixOf (c :: t) || contains t i

/-- `BasicRbacPolicy` — basic.rs:173-174 -/
abbrev Policy := List (Text × List (ObjectType × List ActionUrn))

/-- the closure deciding on one permission — basic.rs:210-222 -/
def permits (action : Action) (inst : Option Text) (p : ActionUrn) : Bool :=
  match p.instance?, inst with
  | some _, none => false
  | some pi, some i => if contains pi i then p.action = action || p.action = .all else false
  | none, _ => p.action = action || p.action = .all

/-- `BasicRbacPolicy::evaluate` — basic.rs:193-230; it never fails. -/
def evaluate (policy : Policy) (action : Action) (ty : ObjectType) (inst : Option Text)
    (scopes : List Text) : Bool :=
  scopes.any fun scope =>
    match get policy scope with
    | none => false
    | some objects =>
      match get objects ty with
      | none => false
      | some actions => actions.any (permits action inst)

/-- `AuthContext` — fluvio-auth/src/policy.rs:22-38; `none` stands for an `AuthError`. -/
structure AuthContext where
  typeAction : ObjectType → TypeAction → Option Bool
  instanceAction : ObjectType → InstanceAction → Text → Option Bool

/-- `BasicAuthContext` — basic.rs:46-73 -/
def basicContext (policy : Policy) (scopes : List Text) : AuthContext where
  typeAction ty a := some (evaluate policy a.toAction ty none scopes)
  instanceAction _ _ _ := some true

/-- `RootAuthContext` — fluvio-auth/src/root.rs:30-50 -/
def rootContext : AuthContext where
  typeAction _ _ := some true
  instanceAction _ _ _ := some true

/-- `ReadOnlyAuthContext` — fluvio-sc/src/services/auth/mod.rs:75-98 -/
def readOnlyContext : AuthContext where
  typeAction ty a := some (a = .read || ty = .customSpu)
  instanceAction _ _ _ := some true

/-- `pub_server::start` — fluvio-sc/src/init.rs:135-161: which context a connection gets.  The scopes
are those of the identity of the connection (`scopesOf` below). -/
def serverContext (policy : Option Policy) (readOnlyMetadata : Bool) (scopes : List Text) :
    AuthContext :=
  match policy with
  | some p => basicContext p scopes
  | none => if readOnlyMetadata then readOnlyContext else rootContext

/-- `ScopeBindings::get_scopes` — x509/authenticator.rs:27-36: the scopes of a principal (the common
name of the client's certificate) -/
def scopesOf (bindings : List (Text × List Text)) (principal : Text) : List Text :=
  match get bindings principal with
  | some scopes => scopes
  | none => []

/-- `BasicRbacPolicy::default` — basic.rs:233-270 -/
def defaultPolicy : Policy :=
  [("Root".toList,
    [(.spu, [⟨.all, none⟩]), (.customSpu, [⟨.all, none⟩]), (.spuGroup, [⟨.all, none⟩]),
     (.topic, [⟨.all, none⟩]), (.partition, [⟨.all, none⟩]), (.tableFormat, [⟨.all, none⟩]),
     (.mirror, [⟨.all, some "user1".toList⟩, ⟨.all, some "user2".toList⟩])])]

/-! ### The text of a permission -/

/-- `Action` as serde writes it (the name of the variant) -/
def Action.text : Action → Text
  | .create => "Create".toList
  | .read => "Read".toList
  | .update => "Update".toList
  | .delete => "Delete".toList
  | .all => "All".toList

/-- `Action` as serde reads it.  Simplified: escape sequences of JSON inside the name are not decoded. -/
def Action.parse (t : Text) : Option Action :=
  if t = "Create".toList then some .create
  else if t = "Read".toList then some .read
  else if t = "Update".toList then some .update
  else if t = "Delete".toList then some .delete
  else if t = "All".toList then some .all
  else none

/-- `Serialize for ActionUrn` — basic.rs:106-121 (the string handed to the serializer) -/
def ActionUrn.text (p : ActionUrn) : Text :=
  match p.instance? with
  | some i => p.action.text ++ ':' :: i
  | none => p.action.text

/-- `str::split(c)`: the pieces between the occurrences of `c`; never empty -/
def split (c : Char) : Text → List Text
  | [] => [[]]
  | x :: t =>
    if x = c then [] :: split c t
    else
      match split c t with
      | [] => [[x]]
      | s :: rest => (x :: s) :: rest

/-- `Deserialize for ActionUrn` — basic.rs:123-144 -/
def ActionUrn.parse (t : Text) : Option ActionUrn :=
  match split ':' t with
  | [] => none
  | a :: rest =>
    match Action.parse a with
    | none => none
    | some action => some ⟨action, rest.head?⟩

/-! ### Facts about the text functions -/

theorem split_ne_nil (c : Char) (t : Text) : split c t ≠ [] := by
  induction t with
  | nil => simp [split]
  | cons x t ih =>
    rw [split]
    split
    · simp
    · split <;> simp

theorem split_free (c : Char) (t : Text) (h : c ∉ t) : split c t = [t] := by
  induction t with
  | nil => rfl
  | cons x t ih =>
    rw [List.mem_cons, not_or] at h
    rw [split, if_neg (fun e => h.1 e.symm), ih h.2]

theorem split_append (c : Char) (a t : Text) (h : c ∉ a) :
    split c (a ++ c :: t) = a :: split c t := by
  induction a with
  | nil => rw [List.nil_append, split, if_pos rfl]
  | cons x a ih =>
    rw [List.mem_cons, not_or] at h
    rw [List.cons_append, split, if_neg (fun e => h.1 e.symm), ih h.2]

theorem contains_iff (t i : Text) : contains t i = true ↔ ∃ a b, t = a ++ i ++ b := by
  induction t with
  | nil =>
    rw [contains, List.isEmpty_iff]
    constructor
    · rintro rfl; exact ⟨[], [], rfl⟩
    · rintro ⟨a, b, h⟩
      have := congrArg List.length h
      simp only [List.length_nil, List.length_append] at this
      exact List.eq_nil_of_length_eq_zero (by omega)
  | cons c t ih =>
    rw [contains, Bool.or_eq_true, ih, List.isPrefixOf_iff_prefix]
    constructor
    · rintro (⟨b, h⟩ | ⟨a, b, h⟩)
      · exact ⟨[], b, by simpa using h.symm⟩
      · exact ⟨c :: a, b, by simp [h]⟩
    · rintro ⟨a, b, h⟩
      cases a with
      | nil => exact .inl ⟨b, by simpa using h.symm⟩
      | cons x a =>
        simp only [List.cons_append, List.cons.injEq] at h
        exact .inr ⟨a, b, h.2⟩

theorem parse_text (a : Action) : Action.parse a.text = some a := by cases a <;> decide

theorem text_free (a : Action) : ':' ∉ a.text := by cases a <;> decide

theorem get_some_mem {κ α : Type} [DecidableEq κ] {m : List (κ × α)} {k : κ} {v : α}
    (h : get m k = some v) : (k, v) ∈ m := by
  unfold get at h
  rw [Option.map_eq_some_iff] at h
  obtain ⟨⟨k', v'⟩, hf, rfl⟩ := h
  have h1 := List.find?_some hf
  have h2 := List.mem_of_find?_eq_some hf
  simp only [decide_eq_true_eq] at h1
  subst h1
  exact h2

end Verif.Admin
