/-! Small general purpose additions shared by all models. -/

deriving instance DecidableEq for Except
