import Verif.Model.Healthd
import Verif.Model.Format
/-!
# The healthd program
Models /repo/cmd/healthd/main.go and /repo/identifier.go: which hosts healthd monitors.  The environment is a function from names to
values (empty = not set, `os.Getenv`); host name and process id are parameters.
Not modelled: the texts printed.  (healthd's own stream: Model/OwnHealth.lean.)
-/
namespace HealthdMain

/-- `strings.Split(s, ",")`. -/
def split (s : Str) : List Str := s.splitOn 44

/-- cmd/healthd/main.go:54-60 `getHealthHostPort`. -/
def getHealthHostPort (env : Str → Str) : Str :=
  let ret := env (bs "HEALTH_HOSTPORT")
  if ret = [] then bs ":5030" else ret

/-- cmd/healthd/main.go:62-70 `getMonitoredHostPorts`; `none` = the program exits. -/
def getMonitoredHostPorts (env : Str → Str) : Option (List Str) :=
  let hps := env (bs "HEALTHD_MONITORED_HOSTPORTS")
  if hps = [] then none else some (split hps)

/-- cmd/healthd/main.go:72-78 `getServerHostPort`. -/
def getServerHostPort (env : Str → Str) : Str :=
  let ret := env (bs "HEALTHD_SERVER_HOSTPORT")
  if ret = [] then bs ":5031" else ret

/-- cmd/healthd/main.go:37: the interval and retention of healthd's own metrics (one minute, five minutes). -/
def ownInterval : Int := 60000000000
def ownRetain : Int := 300000000000

/-- cmd/healthd/main.go:22-52: the state with which healthd starts. -/
def start (env : Str → Str) : Option Healthd.State :=
  (getMonitoredHostPorts env).map (fun hps => Healthd.init (hps ++ [getHealthHostPort env]))

/-- identifier.go:10-18; `host` = none: `os.Hostname` failed. -/
def getIdentifier (pid : Nat) (host : Option Str) : Str :=
  host.getD (bs "hostname_errored") ++ [46] ++ natStr pid

end HealthdMain
