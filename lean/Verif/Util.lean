/-! Small shared instances. -/

deriving instance DecidableEq for Except
