import Verif.Model.Logging
/-! # Handlers of an application (common/logging.py: `PlaygroundLoggingConfiguration` 94-187)

The methods of `Config` with any arguments, on the state of Model/Logging. Simplifications as there; the lists that are passed as modules and tags are not changed
later. A history of calls has its last call at its head. -/
namespace Verif.Logging

/-- `disableHandler` (logging.py:181-184): the filter is removed from the handler (`removeFilter`, if it is there). -/
def disableHandler (s : St) (h : Nat) : St := match s.handlers.get h with
  | none => s
  | some f => { s with hFilters := upd s.hFilters h ((s.hFilters h).erase f), handlers := s.handlers.del h }

inductive Call where
  | root (level : Nat) (additional : List Str)                                     -- enableLogging
  | enable (h level : Nat) (specific : Option (List Str)) (tags : Tags)            -- enableHandler
  | disable (h : Nat)                                                              -- disableHandler
  | clear                                                                          -- clearAllHandlers
  deriving DecidableEq

def call (s : St) : Call → St
  | .root level additional => enableLogging s level additional
  | .enable h level specific tags => enableHandler s h level specific tags
  | .disable h => disableHandler s h
  | .clear => clearAllHandlers s

/-- The state after a history of calls; the last one comes first. -/
def after : List Call → St
  | [] => .init
  | c :: past => call (after past) c

end Verif.Logging
