/-! Instances shared by the models. -/

deriving instance DecidableEq for Except
