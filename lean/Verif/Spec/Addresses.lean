import Verif.Model.Base
/-!
# Specification: which server gets a request
-/
namespace Spec

/-- names and addresses, seen from the machine that sends the request. -/
structure Net where
  /-- what a host name stands for -/
  ip : Str → Option Nat
  /-- the addresses of the machine with the server -/
  own : Nat → Prop
  /-- "localhost" and the empty name are the machine itself, which runs the server -/
  localhost : ∃ n, ip (bs "localhost") = some n ∧ ip [] = some n ∧ own n

/-- a request sent to `dial` arrives at the server that listens at `listen`: the ports are the same, and the host is that of the server or, if the server
listens everywhere, any of its addresses. -/
def Reaches (net : Net) (listen dial : Str) : Prop :=
  ∃ lh dh port : Str, (58 : UInt8) ∉ port ∧ listen = lh ++ [58] ++ port ∧ dial = dh ++ [58] ++ port ∧
    ∃ n, net.ip dh = some n ∧ net.own n ∧ (lh = [] ∨ net.ip lh = some n)

/-- an address with host and port: a host without colons, or any in brackets; no other brackets. -/
def IsHostPort (s host port : Str) : Prop :=
  (s = host ++ [58] ++ port ∧ (58 : UInt8) ∉ host ∧ (91 : UInt8) ∉ host ∧ (93 : UInt8) ∉ host ∧ (58 : UInt8) ∉ port ∧ (91 : UInt8) ∉ port ∧ (93 : UInt8) ∉ port) ∨
  (s = (91 :: (host ++ [93])) ++ [58] ++ port ∧ (91 : UInt8) ∉ host ∧ (93 : UInt8) ∉ host ∧ (58 : UInt8) ∉ port ∧ (91 : UInt8) ∉ port ∧ (93 : UInt8) ∉ port)

/-- a character that ends the host part of a URL. -/
def PlainHost (s : Str) : Prop := (47 : UInt8) ∉ s ∧ (63 : UInt8) ∉ s

end Spec
