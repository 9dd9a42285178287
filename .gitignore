lean/.lake/
build/
