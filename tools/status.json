{
"C01": ["proved", "packed and pretty, all trees whose numbers are JSON numbers (C10)"],
"C07": ["partial", "never reads past the end, terminates, only scalars, valid prefix kept; exact replacement proved for framed input; false of the code for missing/stray continuation bytes and leads F8-FF (refutations proved)"]
}
