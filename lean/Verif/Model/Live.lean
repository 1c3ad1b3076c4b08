import Verif.Model.Remote

/-!
# Model: the messages that live subscribers of a server are sent
-/

namespace RangeDB.Srv

open RangeDB.Json RangeDB.Rem

/-- The WebSocket message for a record (`broadcastRecord`, pkg/rangedbws/websocket_api.go:196-212): `json.Marshal`; no message
if that fails. -/
def wsMessage (r : Record) : Option Str := serialize r

/-- The gRPC message for a record (`broadcastRecord`, pkg/grpc/rangedbserver/server.go:343-357): `ToPbRecord`, and `Send`, which
refuses strings that are not UTF-8. -/
def grpcMessage (r : Record) : Option Record :=
  match toPb r with
  | some p => if sendable p then some p else none
  | none => none

end RangeDB.Srv
