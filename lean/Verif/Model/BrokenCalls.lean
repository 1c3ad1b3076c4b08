import Verif.Model.Remote

/-! # Model: calls of the remote store over connections that break -/

namespace RangeDB.Rem

open RangeDB.Json RangeDB.Http

/-- What becomes of a call on its way. The status is the text that the gRPC library, which is not in /repo, gives the client in
its place: of a connection that broke, a deadline that passed, a context that was cancelled. -/
inductive Net where
  /-- request and reply arrive -/
  | fine
  /-- the request does not arrive -/
  | noRequest (status : Str)
  /-- the server carries the call out, but the client does not get the reply -/
  | noReply (status : Str)

/-- `Save` (`expected = none`, remote_store.go:209-265) and `OptimisticSave` (remote_store.go:146-207) of the client,
together with the server (server.go:161-268), as `save`, over a connection that may break. -/
def saveOver {σ : Type} (net : Net) (other : Err → Str) (store : σ → Str → Option Nat → List EventRecord → σ × Outcome Nat)
    (fl : Str → Option Str) (s : σ) (stream : Str) (expected : Option Nat) (ers : List EventRecord) : σ × CResult Nat :=
  if ers.length < 1 then (s, .err (.store .missingEvents))
  else
    match clientEvents [] [] ers with
    | .error e => (s, .err e)
    | .ok es =>
      if !(decide (Valid stream) && es.all PbEvent.sendable) then (s, .err (.rpc (tCode ++ (tInternalDesc ++ tBadUtf8))))
      else
        let p := serverSave other store fl s stream expected es
        match net with
        | .fine =>
          (p.1,
            match p.2 with
            | some (.ok n) => .ok n
            | some (.error t) => .err (saveError expected.isSome (tCode ++ t))
            | none => .none)
        | .noRequest t => (s, .err (saveError expected.isSome (tCode ++ t)))
        | .noReply t => (p.1, .err (saveError expected.isSome (tCode ++ t)))

/-- What the client makes of a failed delete (remote_store.go:127-140). -/
def deleteError (text : Str) : CErr :=
  if contains text tErrCanceled then .store .canceled
  else if contains text tErrNotFound then .store .notFound
  else if contains text tErrUnexpected then
    .store (.unexpected (Txt.parseUnexpected text).1 (Txt.parseUnexpected text).2)
  else .rpc text

/-- `OptimisticDeleteStream` of the client (remote_store.go:121-144) and the server (server.go:150-159), as `delete`, over a
connection that may break. -/
def deleteOver {σ : Type} (net : Net) (other : Err → Str) (store : σ → Str → Nat → σ × Outcome Unit) (s : σ) (stream : Str)
    (expected : Nat) : σ × CResult Unit :=
  if !decide (Valid stream) then (s, .err (.rpc (tCode ++ (tInternalDesc ++ tBadUtf8))))
  else
    let p := store s stream expected
    match net with
    | .fine =>
      (p.1,
        match p.2 with
        | .ok _ => .ok ()
        | .err e => .err (deleteError (tCode ++ (tUnknownDesc ++ errText other e)))
        | .panic => .none
        | .blocked => .none)
    | .noRequest t => (s, .err (deleteError (tCode ++ t)))
    | .noReply t => (p.1, .err (deleteError (tCode ++ t)))

end RangeDB.Rem
