/-!
# Choosing the version of a request (`fluvio-socket/src/versioned.rs`)

`i16` numbers are integers here; only comparisons are made.
-/

namespace Verif.Net

/-- `ApiVersionKey` — fluvio-protocol/src/link/versions.rs:45-50 -/
structure ApiVersionKey where
  apiKey : Int
  minVersion : Int
  maxVersion : Int
deriving DecidableEq

/-- The constants of `trait Request` — fluvio-protocol/src/api/mod.rs:38-43 (`apiKey` after the cast
`API_KEY as i16`) -/
structure RequestType where
  apiKey : Int
  minVersion : Int
  maxVersion : Int
  default : Int

/-- `Versions::lookup_version` — versioned.rs:216-229 -/
def lookupVersion (r : RequestType) : List ApiVersionKey → Option Int
  | [] => none
  | v :: vs =>
    if v.apiKey = r.apiKey then
      if r.minVersion ≤ v.maxVersion ∧ v.minVersion ≤ r.maxVersion then
        some (min r.maxVersion v.maxVersion)
      else lookupVersion r vs
    else lookupVersion r vs

/-- `new_request` — versioned.rs:351-364, api/request.rs:42-55: the version put into the header. -/
def headerVersion (r : RequestType) (v : Option Int) : Int := v.getD r.default

/-- `make_version_key` calls of the SPU — fluvio-spu/src/services/public/api_versions.rs:14-51.
`common` is `COMMON_VERSION` (fluvio-spu-schema/src/lib.rs), `old` whether the client sent no version. -/
def spuTable (common : Int) (old : Bool) : List ApiVersionKey :=
  [⟨0, 0, common⟩, ⟨1, 0, common⟩, ⟨1002, common, common⟩, ⟨1003, 0, if old then 15 else common⟩,
   ⟨1005, 0, 0⟩]

/-- `make_version_key` calls of the SC — fluvio-sc/src/services/public_api/api_version.rs:36-72, with the
constants of fluvio-sc-schema/src/objects/{create,delete,list,watch,update}.rs and mirroring/mod.rs;
`common` is `COMMON_VERSION` of that crate. -/
def scTable (common : Int) : List ApiVersionKey :=
  [⟨1001, 9, common⟩, ⟨1002, 1, common⟩, ⟨1003, 15, common⟩, ⟨1004, 15, common⟩, ⟨1005, 14, common⟩,
   ⟨1006, 1, common⟩]

end Verif.Net
