__pycache__/
.lake/
