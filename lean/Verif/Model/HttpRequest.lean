import Verif.Model.Librato
import Verif.Model.Bugsnag
/-!
# The requests of the Librato and the Bugsnag sink
Models /repo/sinks/librato/sink.go:289-306 and /repo/sinks/bugsnag/api.go:103-111: what is sent, to whom, and with which credentials;
and encoding/base64's `StdEncoding.EncodeToString`, which `SetBasicAuth` uses.
Not modelled: TLS, and the headers that net/http adds (Host, User-Agent, Content-Length, Accept-Encoding).
-/

/-- `http.Request`, as far as the sinks fill it in. -/
structure HttpRequest where
  method : Str
  url : Str
  headers : List (Str × Str)
  body : Str
deriving DecidableEq, Repr

namespace Base64

/-- encoding/base64, `encodeStd`: the character of a digit below 64. -/
def char (d : Nat) : UInt8 :=
  if d < 26 then UInt8.ofNat (65 + d) else if d < 52 then UInt8.ofNat (97 + (d - 26)) else if d < 62 then UInt8.ofNat (48 + (d - 52))
  else if d = 62 then 43 else 47

/-- encoding/base64, `Encoding.Encode`: three bytes at a time are four digits; the rest is padded. -/
def encode : Str → Str
  | a :: b :: c :: rest =>
    let val := a.toNat * 65536 + b.toNat * 256 + c.toNat
    char (val / 262144 % 64) :: char (val / 4096 % 64) :: char (val / 64 % 64) :: char (val % 64) :: encode rest
  | [a, b] =>
    let val := a.toNat * 65536 + b.toNat * 256
    [char (val / 262144 % 64), char (val / 4096 % 64), char (val / 64 % 64), 61]
  | [a] =>
    let val := a.toNat * 65536
    [char (val / 262144 % 64), char (val / 4096 % 64), 61, 61]
  | [] => []

end Base64

/-- net/http, `Request.SetBasicAuth`: the value of the header Authorization. -/
def basicAuth (user password : Str) : Str := bs "Basic " ++ Base64.encode (user ++ [58] ++ password)

/-- librato/sink.go:67 `libratoRequestPath`. -/
def libratoRequestPath : Str := bs "https://metrics-api.librato.com/v1/metrics"

/-- librato/sink.go:296-305: the request of a flush, if there is one. -/
def Librato.request (user apiKey : Str) : Librato.Sent → Option HttpRequest
  | .posted b =>
    some ⟨bs "POST", libratoRequestPath, [(bs "Content-Type", bs "application/json"), (bs "Authorization", basicAuth user apiKey)], b⟩
  | _ => none

/-- bugsnag/api.go:104-111: the request of `Notify`; the endpoint is the one set by `NewSink` (bugsnag/sink.go:26-28). -/
def Bugsnag.request (config : Bugsnag.Config) (jobName eventName message : Str) (frames : List Stack.Frame) (kvs : Option (GoMap Str Str)) :
    Option HttpRequest :=
  ((Bugsnag.newPayload config jobName eventName message frames kvs).marshalIndent [9]).map
    (fun data => ⟨bs "POST", config.endpoint, [(bs "Content-Type", bs "application/json")], data⟩)
