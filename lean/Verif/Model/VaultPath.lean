import Verif.Model.KeyStore
import Verif.Model.Paging

/-!
# Model: the URLs of the Vault key store (pkg/crypto/provider/vaultkeystore/hashicorp_vault_keystore.go)

`Model/KeyStore.lean` has one secret for each subject ID. The code puts the subject ID into a URL as it is (`getPath`,
`getDestroyPath`, lines 158-164), and Vault addresses secrets by the path of that URL. Of `net/url`: `url.Parse` (as in
`Model/Paging.lean`). The address of the configuration has no '#', '?' or '%'. Vault decodes the path it is sent. Not
modelled: that Vault looks at a query such as `version=1`, and how it cleans a path with empty or dotted segments.
-/

namespace RangeDB.Key

/-- The secret that a request for a subject addresses (hashicorp_vault_keystore.go:38, 88, 112, 158-164): the subject ID up to its
first '#' or '?', decoded. `none`: `http.NewRequest` returns an error. -/
def secretOf (id : Str) : Option Str :=
  if id.any (fun c => c < 32 || c = 127) then none
  else
    let (rest, frag) := Pg.cutAt 35 id
    let (path, _) := Pg.cutAt 63 rest
    match Pg.unescape false path, Pg.unescape false frag with
    | some p, some _ => some p
    | _, _ => none

/-- `Get` (hashicorp_vault_keystore.go:37-70). -/
def VaultUrl.get (v : Vault) (id : Str) : Vault × Str × Option KErr :=
  match secretOf id with
  | none => (v, [], some .other)
  | some s => Vault.get v s

/-- `Set` (hashicorp_vault_keystore.go:72-109): the second `NewRequest` fails as the first one did. -/
def VaultUrl.set (v : Vault) (id key : Str) : Vault × Option KErr :=
  if key = [] then (v, some .invalidKey)
  else
    match secretOf id with
    | none => (v, some .other)
    | some s => Vault.set v s key

/-- `Delete` (hashicorp_vault_keystore.go:111-131). -/
def VaultUrl.delete (v : Vault) (now : Nat) (id : Str) : Vault × Option KErr :=
  match secretOf id with
  | none => (v, some .other)
  | some s => Vault.delete v now s

/-- The Vault store as a `crypto.KeyStore`, addressed by URLs. -/
def vaultUrl : Store Vault := ⟨VaultUrl.get, VaultUrl.set, VaultUrl.delete⟩

end RangeDB.Key
