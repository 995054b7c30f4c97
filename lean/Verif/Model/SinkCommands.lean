import Verif.Model.Stream
import Verif.Model.Aggregator
import Verif.Model.StatsD
/-!
# From the stream's calls to the sinks' commands
Models the `Emit…` methods of the polling sink (json_polling_sink.go:56-74) and of the StatsD sink (statsd_sink.go:135-153): they pass their arguments on, without
the key/values.
-/

/-- json_polling_sink.go:56-74; `deep`: what `reflect.DeepEqual` sees of an error (`none` for nil). -/
def SinkCall.toEmit (deep : GoErr → Option Err) (c : SinkCall) : Emit :=
  match c.payload with
  | .event ev => .event c.job ev
  | .eventErr ev e => .eventErr c.job ev (deep e)
  | .timing ev n => .timing c.job ev n
  | .gauge ev v => .gauge c.job ev v
  | .complete st n => .complete c.job st n

/-- statsd_sink.go:135-153. -/
def SinkCall.toSd (c : SinkCall) : SdCmd :=
  match c.payload with
  | .event ev => .event c.job ev
  | .eventErr ev _ => .eventErr c.job ev
  | .timing ev n => .timing c.job ev n
  | .gauge ev v => .gauge c.job ev v
  | .complete st n => .complete c.job st n
