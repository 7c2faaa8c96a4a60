A function counts as modelled if definitions in `Verif/Model` cite at least half of the lines of code in its body, and as
cited in part if they cite fewer (the names in brackets are the model files). Where a definition covers only a part or simplifies,
its comment says so. The list is computed from the citations.
